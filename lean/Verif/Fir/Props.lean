import Verif.Fir.Model
import Verif.Common.Lists
import Mathlib.Algebra.BigOperators.Group.List.Basic
import Mathlib.Algebra.Group.Nat.Defs

/-!
# Properties C30 (FIR filter) and C31 (circular buffer)
-/

set_option linter.unusedSectionVars false

namespace Verif.Fir

variable {T C : Type}

/-! ## C31: the circular buffer -/

/-- Operations on a buffer. -/
inductive BOp (T : Type) where
  | push (x : T)
  | reset (n : Nat)
  | fill (n : Nat) (el : T)

/-- A history of operations on a buffer. -/
def brun (d : T) : Buffer T → List (BOp T) → Outcome (Buffer T)
  | b, [] => .ok b
  | b, .push x :: os => (b.pushFront x).bind fun b' => brun d b' os
  | b, .reset n :: os => brun d (b.resetCapacity n d) os
  | b, .fill n el :: os => brun d (b.resetFill n el) os

/-- Specification: the capacity after a history (1 for a new buffer). -/
def capacity (cap : Nat) : List (BOp T) → Nat
  | [] => cap
  | .push _ :: os => capacity cap os
  | .reset n :: os => capacity n os
  | .fill n _ :: os => capacity n os

/-- Specification: the samples pushed since the last reset, the most recent first, after the samples `s`. -/
def samples (s : List T) : List (BOp T) → List T
  | [] => s
  | .push x :: os => samples (x :: s) os
  | .reset _ :: os => samples [] os
  | .fill _ _ :: os => samples [] os

/-- The buffer represents the samples `s` (most recent first) with capacity `cap`. -/
structure Holds (b : Buffer T) (cap : Nat) (s : List T) : Prop where
  len : b.buf.length = cap
  start : b.start < cap
  numel : b.numel = min cap s.length
  get : ∀ i, i < min cap s.length → b.buf[(b.start + i) % cap]? = s[i]?

theorem holds_push {b : Buffer T} {cap : Nat} {s : List T} (h : Holds b cap s) (x : T) :
    ∃ b', b.pushFront x = .ok b' ∧ Holds b' cap (x :: s) := by
  obtain ⟨h1, h2, h3, h4⟩ := h
  have hlt : (if b.start ≠ 0 then b.start - 1 else b.buf.length - 1) < b.buf.length := by
    split <;> omega
  refine ⟨_, by rw [Buffer.pushFront, if_pos hlt], ?_, ?_, ?_, ?_⟩
  · simp [h1]
  · simp only [h1] at hlt ⊢
    exact hlt
  · simp only [List.length_cons]
    split <;> omega
  · intro i hi
    simp only [h1] at hlt ⊢
    generalize hs : (if b.start ≠ 0 then b.start - 1 else cap - 1) = st at hlt ⊢
    cases i with
    | zero =>
      simp only [Nat.add_zero, List.getElem?_cons_zero]
      rw [Nat.mod_eq_of_lt hlt, List.getElem?_set]
      simp [h1, hlt]
    | succ i =>
      have hi' : i < min cap s.length ∧ i + 1 < cap := by
        simp only [List.length_cons] at hi
        omega
      have hidx : (st + (i + 1)) % cap = (b.start + i) % cap := by
        by_cases hz : b.start = 0
        · have : st = cap - 1 := by rw [← hs]; simp [hz]
          have e : st + (i + 1) = i + cap := by omega
          rw [e, Nat.add_mod_right, hz, Nat.zero_add]
        · have : st = b.start - 1 := by rw [← hs]; simp [hz]
          congr 1
          omega
      have hne : st ≠ (b.start + i) % cap := by
        rw [← hidx]
        intro hc
        have h5 : st % cap = (st + (i + 1)) % cap := by rw [Nat.mod_eq_of_lt hlt]; exact hc
        by_cases hlt2 : st + (i + 1) < cap
        · rw [Nat.mod_eq_of_lt hlt, Nat.mod_eq_of_lt hlt2] at h5
          omega
        · have e2 : (st + (i + 1)) % cap = st + (i + 1) - cap := by
            rw [Nat.mod_eq_sub_mod (by omega), Nat.mod_eq_of_lt (by omega)]
          rw [Nat.mod_eq_of_lt hlt, e2] at h5
          omega
      rw [hidx, List.getElem?_set_ne hne, List.getElem?_cons_succ]
      exact h4 i hi'.1

theorem holds_reset (b : Buffer T) (n : Nat) (d : T) (hn : 0 < n) : Holds (b.resetCapacity n d) n [] := by
  refine ⟨?_, hn, by simp [Buffer.resetCapacity], by simp⟩
  simp only [Buffer.resetCapacity, List.length_append, List.length_take, List.length_replicate]
  omega

theorem holds_fill (b : Buffer T) (n : Nat) (el : T) (hn : 0 < n) : Holds (b.resetFill n el) n [] :=
  ⟨by simp [Buffer.resetFill], hn, by simp [Buffer.resetFill], by simp⟩

theorem brun_holds (d : T) (os : List (BOp T)) (b : Buffer T) (cap : Nat) (s : List T) (h : Holds b cap s)
    (hpos : ∀ n, (BOp.reset n ∈ os ∨ ∃ el, BOp.fill n el ∈ os) → 0 < n) :
    ∃ b', brun d b os = .ok b' ∧ Holds b' (capacity cap os) (samples s os) := by
  induction os generalizing b cap s with
  | nil => exact ⟨b, rfl, h⟩
  | cons o os ih =>
    have hpos' : ∀ n, (BOp.reset n ∈ os ∨ ∃ el, BOp.fill n el ∈ os) → 0 < n := by
      intro n hn
      apply hpos n
      rcases hn with hn | ⟨el, hn⟩
      · exact .inl (by simp [hn])
      · exact .inr ⟨el, by simp [hn]⟩
    cases o with
    | push x =>
      obtain ⟨b1, h1, h2⟩ := holds_push h x
      obtain ⟨b2, h3, h4⟩ := ih b1 cap _ h2 hpos'
      exact ⟨b2, by simp only [brun, h1, Outcome.bind_ok, h3], h4⟩
    | reset n => exact ih _ n [] (holds_reset b n d (hpos n (.inl (by simp)))) hpos'
    | fill n el => exact ih _ n [] (holds_fill b n el (hpos n (.inr ⟨el, by simp⟩))) hpos'

theorem get_of_holds {b : Buffer T} {cap : Nat} {s : List T} (h : Holds b cap s) (i : Nat)
    (hi : i < cap) (x : T) (hx : s[i]? = some x) : b.get i = .ok x := by
  have hl := (List.getElem?_eq_some_iff.mp hx).1
  rw [Buffer.get, h.len, if_neg (by omega), rd_eq_ok, h.get i (by omega), hx]

/-- After any history of pushes and resets to positive capacities, from a new buffer, every index below the capacity
and below the number of pushes since the last reset reads the sample pushed that many steps ago, and the size is the
smaller of the two numbers. -/
theorem C31_buffer_holds_recent_samples (d : T) (os : List (BOp T))
    (hpos : ∀ n, (BOp.reset n ∈ os ∨ ∃ el, BOp.fill n el ∈ os) → 0 < n) :
    ∃ b, brun d (Buffer.init d) os = .ok b ∧
      b.numel = min (capacity 1 os) (samples [] os).length ∧
      ∀ i x, i < capacity 1 os → (samples [] os)[i]? = some x → b.get i = .ok x := by
  obtain ⟨b, h1, h2⟩ := brun_holds d os (Buffer.init d) 1 []
    ⟨rfl, by simp [Buffer.init], rfl, by simp⟩ hpos
  exact ⟨b, h1, h2.numel, fun i x hi hx => get_of_holds h2 i hi x hx⟩

/-- Reading never goes out of range once the capacity is positive, even at an index with no sample yet. -/
theorem C31_reads_in_range (d : T) (os : List (BOp T)) (i : Nat)
    (hpos : ∀ n, (BOp.reset n ∈ os ∨ ∃ el, BOp.fill n el ∈ os) → 0 < n) :
    ∃ b x, brun d (Buffer.init d) os = .ok b ∧ b.get i = .ok x := by
  obtain ⟨b, h1, h2⟩ := brun_holds d os (Buffer.init d) 1 []
    ⟨rfl, by simp [Buffer.init], rfl, by simp⟩ hpos
  have hc := h2.start
  have hl : (b.start + i) % b.buf.length < b.buf.length := Nat.mod_lt _ (by rw [h2.len]; omega)
  exact ⟨b, b.buf[(b.start + i) % b.buf.length], h1,
    by rw [Buffer.get, if_neg (by rw [h2.len]; omega), rd_of_lt _ _ hl]⟩

/-- A buffer of capacity 0 is accepted, and the next push writes out of range. -/
theorem C31_zero_capacity_counterexample (d x : T) :
    brun d (Buffer.init d) [.reset 0, .push x] = .ub := by
  simp [brun, Buffer.resetCapacity, Buffer.pushFront, Buffer.init]

example : samples [] [BOp.push 1, .reset 2, .push 2, .push 3, .push 4] = [4, 3, 2] ∧
    capacity 1 [BOp.push 1, .reset 2, .push 2, .push 3, .push 4] = 2 ∧
    (brun 0 (Buffer.init 0) [BOp.push 1, .reset 2, .push 2, .push 3, .push 4]).bind (·.get 1) = .ok 3 := by
  decide

/-! ## C30: the filter -/

/-- Specification: the coefficients after a history (`c0`: default coefficient). A change of size keeps the first
coefficients. -/
def coefficients (c0 : C) (cs : List C) : List (Op T C) → List C
  | [] => cs
  | .setSize n :: os => coefficients c0 (cs.take n ++ List.replicate (n - cs.length) c0) os
  | .setElement r c :: os => coefficients c0 (cs.set r c) os
  | .sample _ :: os => coefficients c0 cs os

/-- Specification: the samples since the last change of size, the most recent first. -/
def received (s : List T) : List (Op T C) → List T
  | [] => s
  | .setSize _ :: os => received [] os
  | .setElement _ _ :: os => received s os
  | .sample x :: os => received (x :: s) os

/-- The convolution of the coefficients and the samples (most recent first): the sum of `c_i * s(n-i)` over the indices
that both have. -/
def convolution [AddCommMonoid T] (act : C → T → T) (cs : List C) (s : List T) : T :=
  (List.zipWith act cs s).sum

/-- Sizes are positive and ranks in range: the histories in which the filter is used properly. -/
def Proper (c0 : C) : List C → List (Op T C) → Prop
  | _, [] => True
  | cs, .setSize n :: os => 0 < n ∧ Proper c0 (cs.take n ++ List.replicate (n - cs.length) c0) os
  | cs, .setElement r c :: os => r < cs.length ∧ Proper c0 (cs.set r c) os
  | cs, .sample _ :: os => Proper c0 cs os

theorem accumulate_any [Add T] (act : C → T → T) (coefs : List C) (data : Buffer T) (cap : Nat) (s : List T)
    (h : Holds data cap s) (k i : Nat) (res : T) (hk : i + k ≤ coefs.length) (hc : i + k ≤ cap)
    (hs : i + k ≤ s.length) :
    accumulate act coefs data k i res =
      .ok ((List.zipWith act ((coefs.drop i).take k) ((s.drop i).take k)).foldl (· + ·) res) := by
  induction k generalizing i res with
  | zero => simp [accumulate]
  | succ k ih =>
    have hi : i < coefs.length := by omega
    have his : i < s.length := by omega
    rw [accumulate, rd_of_lt coefs i hi, Outcome.bind_ok,
      get_of_holds h i (by omega) s[i] (List.getElem?_eq_getElem his), Outcome.bind_ok,
      ih (i + 1) _ (by omega) (by omega) (by omega)]
    rw [List.drop_eq_getElem_cons hi, List.drop_eq_getElem_cons his]
    simp only [List.take_succ_cons, List.zipWith_cons_cons, List.foldl_cons]

/-- The invariant of the filter: coefficients and samples; the buffer is as large as the coefficients, or there is no
coefficient. -/
structure FHolds (f : Filter T C) (cs : List C) (s : List T) : Prop where
  coefs : f.coefs = cs
  data : ∃ cap, Holds f.data cap s ∧ cs.length ≤ cap

theorem compute_any [Add T] (act : C → T → T) (reset : T → T) (f : Filter T C) (cs : List C) (s : List T)
    (h : FHolds f cs s) (res x : T) :
    ∃ f', f.compute act reset res x = .ok ((List.zipWith act cs (x :: s)).foldl (· + ·) (reset res), f') ∧
      FHolds f' cs (x :: s) := by
  obtain ⟨h1, cap, h2, h3⟩ := h
  obtain ⟨b, hb1, hb2⟩ := holds_push h2 x
  have hmin : min b.numel f.coefs.length = min (x :: s).length cs.length := by
    rw [hb2.numel, h1]
    omega
  refine ⟨{ f with data := b }, ?_, ⟨h1, cap, hb2, h3⟩⟩
  rw [Filter.compute, hb1, Outcome.bind_ok, hmin,
    accumulate_any act f.coefs b cap (x :: s) hb2 _ 0 _ (by rw [h1]; omega) (by omega) (by omega),
    Outcome.map_ok, h1]
  congr 2
  rw [List.drop_zero, List.drop_zero]
  conv_rhs => rw [List.zipWith_eq_zipWith_take_min]
  rw [Nat.min_comm]

theorem foldl_sum [AddCommMonoid T] (l : List T) (res : T) : l.foldl (· + ·) res = res + l.sum := by
  induction l generalizing res with
  | nil => simp
  | cons a l ih => rw [List.foldl_cons, ih, List.sum_cons, add_assoc]

theorem compute_ok [AddCommMonoid T] (act : C → T → T) (reset : T → T) (f : Filter T C) (cs : List C) (s : List T)
    (h : FHolds f cs s) (res x : T) :
    ∃ f', f.compute act reset res x = .ok (reset res + convolution act cs (x :: s), f') ∧
      FHolds f' cs (x :: s) := by
  obtain ⟨f', h1, h2⟩ := compute_any act reset f cs s h res x
  exact ⟨f', by rw [h1, foldl_sum, convolution], h2⟩

theorem run_holds [Add T] (act : C → T → T) (reset : T → T) (d res : T) (c0 : C) (os : List (Op T C))
    (f : Filter T C) (cs : List C) (s : List T) (h : FHolds f cs s) (hp : Proper c0 cs os) :
    ∃ f', run act reset d res c0 f os = .ok f' ∧ FHolds f' (coefficients c0 cs os) (received s os) := by
  induction os generalizing f cs s with
  | nil => exact ⟨f, rfl, h⟩
  | cons o os ih =>
    cases o with
    | setSize n =>
      have hl : (cs.take n ++ List.replicate (n - cs.length) c0).length = n := by
        simp only [List.length_append, List.length_take, List.length_replicate]
        omega
      have h' : FHolds (f.resizeBuffer n d c0) (cs.take n ++ List.replicate (n - cs.length) c0) [] :=
        ⟨by simp [Filter.resizeBuffer, h.coefs], n, holds_reset f.data n d hp.1, by omega⟩
      exact ih _ _ _ h' hp.2
    | setElement r c =>
      have h' : FHolds { f with coefs := f.coefs.set r c } (cs.set r c) s := by
        obtain ⟨cap, hd, hc⟩ := h.data
        exact ⟨by simp [h.coefs], cap, hd, by simpa using hc⟩
      obtain ⟨f', h1, h2⟩ := ih _ _ _ h' hp.2
      refine ⟨f', ?_, h2⟩
      have : r < f.coefs.length := by rw [h.coefs]; exact hp.1
      simp only [run, step, Filter.setElement, if_pos this, Outcome.bind_ok, h1]
    | sample x =>
      obtain ⟨f1, g1, g2⟩ := compute_any act reset f cs s h res x
      obtain ⟨f', h1, h2⟩ := ih _ _ _ g2 hp
      refine ⟨f', ?_, h2⟩
      simp only [run, step, g1, Outcome.map_ok, Outcome.bind_ok, h1]

/-- After any proper history, whatever the addition and the action of the coefficients (they may round): the output for a new sample is the
sum, from the first coefficient to the last, that starts from what the reset leaves in the result buffer and adds the action of each
coefficient on the sample as old as its rank. -/
theorem C30_output_any [Add T] (act : C → T → T) (reset : T → T) (d res0 res x : T) (c0 : C) (os : List (Op T C)) (hp : Proper c0 [] os) :
    ∃ f f', run act reset d res0 c0 (Filter.init d) os = .ok f ∧ f.compute act reset res x =
      .ok ((List.zipWith act (coefficients c0 [] os) (x :: received [] os)).foldl (· + ·) (reset res), f') := by
  have h0 : FHolds (Filter.init d : Filter T C) [] [] :=
    ⟨rfl, 1, ⟨rfl, by simp [Filter.init, Buffer.init], rfl, by simp⟩, by simp⟩
  obtain ⟨f, h1, h2⟩ := run_holds act reset d res0 c0 os _ _ _ h0 hp
  obtain ⟨f', h3, _⟩ := compute_any act reset f _ _ h2 res x
  exact ⟨f, f', h1, h3⟩

/-- After any proper history, the output computed for a new sample by a filter of vector signals is the convolution of
the coefficients with the samples received since the last change of size, the new one included, whatever the result
buffer contained. -/
theorem C30_vector_filter_is_convolution [AddCommMonoid T] (act : C → T → T) (d res0 res x : T) (c0 : C)
    (os : List (Op T C)) (hp : Proper c0 [] os) :
    ∃ f f', run act (fun _ => 0) d res0 c0 (Filter.init d) os = .ok f ∧
      f.compute act (fun _ => 0) res x =
        .ok (convolution act (coefficients c0 [] os) (x :: received [] os), f') := by
  have h0 : FHolds (Filter.init d : Filter T C) [] [] :=
    ⟨rfl, 1, ⟨rfl, by simp [Filter.init, Buffer.init], rfl, by simp⟩, by simp⟩
  obtain ⟨f, h1, h2⟩ := run_holds act (fun _ => 0) d res0 c0 os _ _ _ h0 hp
  obtain ⟨f', h3, _⟩ := compute_ok act (fun _ => 0) f _ _ h2 res x
  exact ⟨f, f', h1, by simpa using h3⟩

/-- For a filter of scalar signals the output is the previous content of the result buffer plus the convolution.
Missing: that it is the convolution, which is false (next theorem). -/
theorem C30_scalar_filter_partial [AddCommMonoid T] (act : C → T → T) (d res0 res x : T) (c0 : C)
    (os : List (Op T C)) (hp : Proper c0 [] os) :
    ∃ f f', run act id d res0 c0 (Filter.init d) os = .ok f ∧
      f.compute act id res x =
        .ok (res + convolution act (coefficients c0 [] os) (x :: received [] os), f') := by
  have h0 : FHolds (Filter.init d : Filter T C) [] [] :=
    ⟨rfl, 1, ⟨rfl, by simp [Filter.init, Buffer.init], rfl, by simp⟩, by simp⟩
  obtain ⟨f, h1, h2⟩ := run_holds act id d res0 c0 os _ _ _ h0 hp
  obtain ⟨f', h3, _⟩ := compute_ok act id f _ _ h2 res x
  exact ⟨f, f', h1, h3⟩

/-- A scalar filter with the single coefficient 1 (the identity) that has just output 5 and receives 1 outputs 6 when
the signal reuses its result buffer. -/
theorem C30_scalar_counterexample :
    ((run (fun (c x : Int) => c * x) id 0 0 0 (Filter.init 0) [.setSize 1, .setElement 0 1]).bind fun f =>
      (f.compute (fun c x => c * x) id 0 5).bind fun (y, f') =>
        (f'.compute (fun c x => c * x) id y 1).map fun (y', _) => (y, y')) = .ok (5, 6) := by
  decide

/-- A rank out of range is accepted by the command and writes out of range. -/
theorem C30_set_element_counterexample (f : Filter T C) (c : C) : f.setElement f.coefs.length c = .ub := by
  simp [Filter.setElement]

example : Proper (T := Int) (0 : Int) [] [.setSize 2, .setElement 0 3, .setElement 1 5, .sample 1, .sample 2] ∧
    coefficients (T := Int) (0 : Int) [] [.setSize 2, .setElement 0 3, .setElement 1 5, .sample 1, .sample 2] = [3, 5] ∧
    convolution (fun (c x : Int) => c * x) [3, 5] [7, 2, 1] = 31 := by
  refine ⟨by simp [Proper], by decide, by decide⟩

end Verif.Fir
