import Verif.Differentiator.Model
import Verif.Causal.Props
import Mathlib.Tactic.Linarith

/-!
# Properties of the entity `FilterDifferentiator` (C107)
-/

namespace Verif.Differentiator

open Verif.Causal

variable {F : Type} [Field F]

/-- The caches are older than a time. -/
def Older (s : State F) (t : Int) : Prop := (∀ t' v, s.inner = some (t', v) → t' < t) ∧ ∀ o t' v, s.outs o = some (t', v) → t' < t

/-- The part of a result that an output stands for. -/
def Output.of {V : Type} (o : Output) (r : Out V) : V :=
  match o with
  | .x => r.x
  | .dx => r.dx
  | .ddx => r.ddx

/-- The state during a time at which the filter gave `r`. -/
structure During (s : State F) (t : Int) (n : Nat) (f : Filter F (Fin n → F)) (r : Out (Fin n → F)) : Prop where
  body : s.body = some ⟨n, f⟩
  inner : s.inner = some (t, List.ofFn r.x ++ List.ofFn r.dx ++ List.ofFn r.ddx)
  outs : ∀ o t' v, s.outs o = some (t', v) → t' < t ∨ t' = t ∧ v = List.ofFn (o.of r)

theorem part_of (o : Output) {n : Nat} (r : Out (Fin n → F)) :
    part o n (List.ofFn r.x ++ List.ofFn r.dx ++ List.ofFn r.ddx) = .ok (List.ofFn (o.of r)) := by
  cases o
  · simp [part, Output.of]
  · have h : 2 * n ≤ n + (n + n) := by omega
    simp [part, Output.of, h]
  · have h : n ≤ n + n + n := by omega
    have e : n + n + n - n = n + n := by omega
    have hd : ((List.ofFn r.x ++ List.ofFn r.dx) ++ List.ofFn r.ddx).drop (n + n) = List.ofFn r.ddx := by
      rw [List.drop_append_of_le_length (by simp), List.drop_of_length_le (by simp), List.nil_append]
    simp only [part, Output.of, List.length_append, List.length_ofFn, h, if_true, e, hd]

theorem During.later {s : State F} {t : Int} {n : Nat} {f : Filter F (Fin n → F)} {r : Out (Fin n → F)} (h : During s t n f r) {t' : Int}
    (ht : t < t') : Older s t' := by
  constructor
  · intro t1 v hv
    rw [h.inner] at hv
    cases hv
    exact ht
  · intro o t1 v hv
    rcases h.outs o t1 v hv with h1 | ⟨rfl, -⟩
    · exact h1.trans ht
    · exact ht

theorem Older.mono {s : State F} {t t' : Int} (h : Older s t) (ht : t ≤ t') : Older s t' :=
  ⟨fun a v hv => lt_of_lt_of_le (h.1 a v hv) ht, fun o a v hv => lt_of_lt_of_le (h.2 o a v hv) ht⟩

theorem During.read {s : State F} {t : Int} {n : Nat} {f : Filter F (Fin n → F)} {r : Out (Fin n → F)} (h : During s t n f r) (o : Output)
    (x : List F) : ∃ s', readOut s o t x = .ok (List.ofFn (o.of r), s') ∧ During s' t n f r := by
  have hin : readInner s t x = .ok (List.ofFn r.x ++ List.ofFn r.dx ++ List.ofFn r.ddx, s) := by simp [readInner, h.inner]
  have hc : computeOut s o t x = .ok (List.ofFn (o.of r),
      { s with outs := fun o' => if o' = o then some (t, List.ofFn (o.of r)) else s.outs o' }) := by
    rw [computeOut, hin, Outcome.bind_ok]
    simp only [h.body]
    rw [part_of, Outcome.map_ok]
  have hd : During { s with outs := fun o' => if o' = o then some (t, List.ofFn (o.of r)) else s.outs o' } t n f r := by
    refine ⟨h.body, h.inner, ?_⟩
    intro o' t' v hv
    simp only at hv
    split_ifs at hv with e
    · cases hv
      exact .inr ⟨rfl, by rw [e]⟩
    · exact h.outs o' t' v hv
  rw [readOut]
  cases hs : s.outs o with
  | none => exact ⟨_, hc, hd⟩
  | some p =>
    obtain ⟨t', v⟩ := p
    simp only
    rcases h.outs o t' v hs with h1 | ⟨rfl, rfl⟩
    · rw [if_pos h1]
      exact ⟨_, hc, hd⟩
    · rw [if_neg (lt_irrefl _)]
      exact ⟨s, rfl, h⟩

theorem During.readAll {s : State F} {t : Int} {n : Nat} {f : Filter F (Fin n → F)} {r : Out (Fin n → F)} (h : During s t n f r)
    (os : List Output) (x : List F) : ∃ s', readAll s t x os = .ok (os.map fun o => List.ofFn (o.of r), s') ∧ During s' t n f r := by
  induction os generalizing s with
  | nil => exact ⟨s, rfl, h⟩
  | cons o os ih =>
    obtain ⟨s1, h1, hd⟩ := h.read o x
    obtain ⟨s2, h2, hd2⟩ := ih hd
    refine ⟨s2, ?_, hd2⟩
    rw [Differentiator.readAll, h1, Outcome.bind_ok, h2, Outcome.map_ok]
    rfl

/-- **C107.** At a new time, whatever outputs are read, how often and in which order, the filter gets the input exactly once, and each
output is its part of the one result of the filter. -/
theorem C107_once {s : State F} {t : Int} (ho : Older s t) {n : Nat} {f f' : Filter F (Fin n → F)} (hb : s.body = some ⟨n, f⟩) (x : Fin n → F)
    {r : Out (Fin n → F)} (hf : sample f x = .ok (r, f')) (o : Output) (os : List Output) :
    ∃ s', readAll s t (List.ofFn x) (o :: os) = .ok ((o :: os).map fun o => List.ofFn (o.of r), s') ∧ s'.body = some ⟨n, f'⟩ ∧
      ∀ t', t < t' → Older s' t' := by
  let v := List.ofFn r.x ++ List.ofFn r.dx ++ List.ofFn r.ddx
  let s1 : State F := { s with body := some ⟨n, f'⟩, inner := some (t, v) }
  have hci : computeInner s t (List.ofFn x) = .ok (v, s1) := by
    simp only [computeInner, hb]
    rw [dif_pos (by simp)]
    have : (fun i : Fin n => (List.ofFn x)[i.1]'(by simp)) = x := by
      funext i
      simp
    rw [this, hf, Outcome.map_ok]
  have hri : readInner s t (List.ofFn x) = .ok (v, s1) := by
    rw [readInner]
    cases hs : s.inner with
    | none => exact hci
    | some p =>
      obtain ⟨t', w⟩ := p
      simp only
      rw [if_pos (ho.1 t' w hs)]
      exact hci
  have hd1 : During s1 t n f' r := ⟨rfl, rfl, fun o t' w hw => .inl (ho.2 o t' w hw)⟩
  have hd2 : During { s1 with outs := fun o' => if o' = o then some (t, List.ofFn (o.of r)) else s1.outs o' } t n f' r := by
    refine ⟨rfl, rfl, ?_⟩
    intro o' t' w hw
    simp only at hw
    split_ifs at hw with e
    · cases hw
      exact .inr ⟨rfl, by rw [e]⟩
    · exact hd1.outs o' t' w hw
  have hco : computeOut s o t (List.ofFn x) = .ok (List.ofFn (o.of r),
      { s1 with outs := fun o' => if o' = o then some (t, List.ofFn (o.of r)) else s1.outs o' }) := by
    rw [computeOut, hri, Outcome.bind_ok]
    show (part o n v).map _ = _
    rw [part_of, Outcome.map_ok]
  have hro : readOut s o t (List.ofFn x) = .ok (List.ofFn (o.of r),
      { s1 with outs := fun o' => if o' = o then some (t, List.ofFn (o.of r)) else s1.outs o' }) := by
    rw [readOut]
    cases hs : s.outs o with
    | none => exact hco
    | some p =>
      obtain ⟨t', w⟩ := p
      simp only
      rw [if_pos (ho.2 o t' w hs)]
      exact hco
  obtain ⟨s2, h2, hd⟩ := hd2.readAll os (List.ofFn x)
  refine ⟨s2, ?_, hd.body, fun t' ht => hd.later ht⟩
  rw [readAll, hro, Outcome.bind_ok, h2, Outcome.map_ok]
  rfl

/-- The times increase. -/
def Increasing (t : Int) : List Int → Prop
  | [] => True
  | t' :: ts => t ≤ t' ∧ Increasing (t' + 1) ts

/-- **C107.** Over any history with increasing times, at each of which some outputs are read, the outputs are those of the filter fed with the
inputs of these times, one after the other. -/
theorem C107_history {n : Nat} (h : List (Int × (Fin n → F) × Output × List Output)) : ∀ {s : State F} {t : Int}, Older s t →
    ∀ {f : Filter F (Fin n → F)}, s.body = some ⟨n, f⟩ → Increasing t (h.map fun p => p.1) →
    ∀ {rs : List (Out (Fin n → F))} {f' : Filter F (Fin n → F)}, run f (h.map fun p => p.2.1) = .ok (rs, f') →
    ∃ s', history s (h.map fun p => (p.1, List.ofFn p.2.1, p.2.2.1 :: p.2.2.2)) =
        .ok (List.zipWith (fun p r => (p.2.2.1 :: p.2.2.2).map fun o => List.ofFn (o.of r)) h rs, s') ∧ s'.body = some ⟨n, f'⟩ := by
  induction h with
  | nil =>
    intro s t _ f hb _ rs f' hr
    cases hr
    exact ⟨s, rfl, hb⟩
  | cons p h ih =>
    intro s t ho f hb hi rs f' hr
    obtain ⟨t1, x, o, os⟩ := p
    simp only [List.map_cons, run, Outcome.bind_eq_ok, Outcome.map_eq_ok] at hr
    obtain ⟨⟨r, f1⟩, hs, ⟨rs', f2⟩, hr', he⟩ := hr
    cases he
    obtain ⟨s1, h1, hb1, hl1⟩ := C107_once (ho.mono hi.1) hb x hs o os
    obtain ⟨s2, h2, hb2⟩ := ih (hl1 (t1 + 1) (Int.lt_succ t1)) hb1 hi.2 hr'
    refine ⟨s2, ?_, hb2⟩
    rw [List.map_cons, history, h1, Outcome.bind_ok, h2, Outcome.map_ok]
    rfl

/-- **C107.** After `init`, the outputs satisfy the difference equation of the filter and the derivatives are the backward differences of
the filtered signal, for every history with increasing times. -/
theorem C107_filter [LinearOrder F] {s s' : State F} {t : Int} (ho : Older s t) {dt : F} {n : Nat} {num den : List F}
    (hi : init s dt n num den = .ok s') (hn : 0 < num.length) (hd : 3 ≤ den.length) (ha : den.getD 0 0 ≠ 0)
    (p : Int × (Fin n → F) × Output × List Output) (h : List (Int × (Fin n → F) × Output × List Output))
    (ht : Increasing t ((p :: h).map fun p => p.1)) :
    ∃ rs s'', history s' ((p :: h).map fun p => (p.1, List.ofFn p.2.1, p.2.2.1 :: p.2.2.2)) =
        .ok (List.zipWith (fun p r => (p.2.2.1 :: p.2.2.2).map fun o => List.ofFn (o.of r)) (p :: h) rs, s'') ∧ rs.length = h.length + 1 ∧
      ∀ k o, rs[k]? = some o →
        DifferenceEquation num den p.2.1 (den.sum⁻¹ • num.sum • p.2.1) ((p :: h).map fun p => p.2.1) (rs.map (·.x)) k ∧
        o.dx = dt⁻¹ • (o.x - ago (den.sum⁻¹ • num.sum • p.2.1) (rs.map (·.x)) k 1) ∧
        o.ddx = dt⁻¹ • dt⁻¹ • (o.x - (2 : F) • ago (den.sum⁻¹ • num.sum • p.2.1) (rs.map (·.x)) k 1 +
          ago (den.sum⁻¹ • num.sum • p.2.1) (rs.map (·.x)) k 2) := by
  rw [init] at hi
  split_ifs at hi with hc
  have hi := Outcome.ok.inj hi
  subst hi
  obtain ⟨rs, f, hr, hl, hp⟩ := C32_difference_equation num den dt p.2.1 (h.map fun p => p.2.1) hn hd ha
  obtain ⟨s2, h2, -⟩ := C107_history (p :: h) (s := { s with body := some ⟨n, Causal.init _ dt num den⟩ }) ho rfl ht hr
  exact ⟨rs, s2, h2, by simpa using hl, hp⟩

/-- **C107.** Before `init`, reading an output or changing the filter uses members that are not initialised. -/
theorem C107_before_init_counterexample (o : Output) (t : Int) (x num den : List F) :
    readOut (State.new : State F) o t x = .ub ∧ switchFilter (State.new : State F) num den = .ub := ⟨rfl, rfl⟩

/-- **C107.** An input of another size than the one announced, a time step that is not positive, a negative size and an empty denominator
violate assertions. -/
theorem C107_sizes_counterexample [LinearOrder F] {s : State F} {t : Int} (ho : Older s t) {b : Body F} (hb : s.body = some b) {x : List F}
    (hx : x.length ≠ b.size) (o : Output) (dt : F) (size : Int) (num den : List F) (hi : dt ≤ 0 ∨ size < 0 ∨ den = []) :
    readOut s o t x = .ub ∧ init s dt size num den = .ub := by
  constructor
  · have hci : computeInner s t x = .ub := by simp [computeInner, hb, hx]
    have hri : readInner s t x = .ub := by
      rw [readInner]
      cases hs : s.inner with
      | none => exact hci
      | some p => simpa [ho.1 p.1 p.2 hs] using hci
    have hco : computeOut s o t x = .ub := by rw [computeOut, hri, Outcome.bind_ub]
    rw [readOut]
    cases hs : s.outs o with
    | none => exact hco
    | some p => simpa [ho.2 o p.1 p.2 hs] using hco
  · rw [init, if_neg]
    rintro ⟨h1, h2, h3⟩
    rcases hi with h | h | h
    · exact absurd h1 (not_lt.2 h)
    · omega
    · exact h3 h

/-- **C107.** A second `init` with a larger size in the middle of a time makes the outputs that are read afterwards at this time take
their part of the old result with the new size: out of range when the size is more than one and a half times as large, and a mixture of
positions, velocities and accelerations otherwise. -/
theorem C107_second_init_counterexample [LinearOrder F] {s s1 : State F} {t : Int} {n : Nat} {f : Filter F (Fin n → F)} {r : Out (Fin n → F)}
    (h : During s t n f r) (hn : s.outs .dx = none) {dt : F} {m : Nat} {num den : List F} (hi : init s dt m num den = .ok s1) (x : List F) :
    (3 * n < 2 * m → readOut s1 .dx t x = .ub) ∧
      (2 * m ≤ 3 * n → (readOut s1 .dx t x).map (fun q => q.1) =
        .ok (((List.ofFn r.x ++ List.ofFn r.dx ++ List.ofFn r.ddx).drop m).take m)) := by
  rw [init] at hi
  split_ifs at hi with hc
  have hi := Outcome.ok.inj hi
  subst hi
  have hin : ∀ b, readInner { s with body := some b } t x = .ok (List.ofFn r.x ++ List.ofFn r.dx ++ List.ofFn r.ddx,
      { s with body := some b }) := by
    intro b
    simp [readInner, h.inner]
  have hlen : (List.ofFn r.x ++ List.ofFn r.dx ++ List.ofFn r.ddx).length = 3 * n := by simp; omega
  have e : ((m : Nat) : Int).toNat = m := by simp
  constructor
  · intro hm
    simp only [readOut, hn, computeOut]
    rw [hin, Outcome.bind_ok]
    simp only [part, hlen, e]
    rw [if_neg (by omega)]
    rfl
  · intro hm
    simp only [readOut, hn, computeOut]
    rw [hin, Outcome.bind_ok]
    simp only [part, hlen, e]
    rw [if_pos hm]
    rfl

/-- A history with two inputs: the filter of `y = x`, with the derivative. -/
theorem C107_case : ((init (State.new : State ℚ) 1 1 [1] [1, 0, 0]).bind fun s =>
    (history s [(1, [0], [.dx, .x, .dx]), (2, [3], [.x, .dx])]).map fun q => q.1) = .ok [[[0], [0], [0]], [[3], [3]]] := by
  decide +kernel

end Verif.Differentiator
