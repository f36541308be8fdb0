import Verif.Operators.Model
import Verif.Common.Lists
import Mathlib.Algebra.BigOperators.Group.List.Basic
import Mathlib.Algebra.BigOperators.Group.Finset.Basic
import Mathlib.Algebra.Module.Rat
import Mathlib.Tactic.NormNum
import Mathlib.Algebra.Order.Ring.Rat

/-!
# Properties C49, C79, C80 and C82: sums, products, comparisons, temporal convolution and selections of matrices
-/
set_option linter.unusedSimpArgs false
set_option linter.unusedSectionVars false

namespace Verif.Operators

variable {F : Type}

/-! ### C49: adder -/

theorem addLoop_eq {T : Type} [AddCommMonoid T] [SMul F T] (coeffs : List F) (vs : List T) (i : Nat) (res : T)
    (h : i + vs.length ≤ coeffs.length) :
    addLoop coeffs vs i res = .ok (res + (List.zipWith (· • ·) (coeffs.drop i) vs).sum) := by
  induction vs generalizing i res with
  | nil => simp [addLoop]
  | cons v vs ih =>
    have hi : i < coeffs.length := by simp only [List.length_cons] at h; omega
    rw [addLoop, rd_of_lt _ _ hi, Outcome.bind_ok, ih (i + 1) _ (by simp only [List.length_cons] at h; omega),
      List.drop_eq_getElem_cons hi, List.zipWith_cons_cons, List.sum_cons, add_assoc]

/-- **C49, adder.** With at least one input and as many coefficients, the output is the sum of the inputs weighted by the
coefficients, whatever the output buffer held. -/
theorem C49_adder {T : Type} [AddCommMonoid T] [SMul F T] (coeffs : List F) (vs : List T) (res : T) (hne : vs ≠ [])
    (h : vs.length = coeffs.length) :
    adder coeffs vs res = .ok (List.zipWith (· • ·) coeffs vs).sum := by
  cases vs with
  | nil => exact absurd rfl hne
  | cons v vs =>
    cases coeffs with
    | nil => simp at h
    | cons c coeffs =>
      rw [adder, if_neg (by simpa using h)]
      rw [rd_of_lt _ _ (by simp), Outcome.bind_ok, addLoop_eq _ _ _ _ (by simp at h ⊢; omega)]
      simp

example : ([3, 5, 7] : List ℚ) ≠ [] ∧ ([3, 5, 7] : List ℚ).length = ([1, -1, 2] : List ℚ).length ∧
    adder ([1, -1, 2] : List ℚ) ([3, 5, 7] : List ℚ) 100 = .ok 12 := by
  refine ⟨by simp, rfl, ?_⟩
  rw [C49_adder ([1, -1, 2] : List ℚ) ([3, 5, 7] : List ℚ) 100 (by simp) rfl]
  norm_num

/-- The commands of the adder available from the scripts: the number of inputs, the coefficients. -/
inductive AdderCmd (F : Type) where
  | setNumber (n : Nat)
  | setCoeffs (c : List F)

/-- Run one of them; a refused command changes nothing. -/
def Adder.run [One F] (a : Adder F) : AdderCmd F → Adder F
  | .setNumber n => a.setNumber n
  | .setCoeffs c => match a.setCoeffs c with
    | .ok a' => a'
    | _ => a

/-- **C49, coefficients.** After any history of script commands the adder has one coefficient for each input, so that it is
never undefined; with all coefficients untouched since the last change of the number of inputs, they are all one. -/
theorem C49_coefficients {T : Type} [AddCommMonoid T] [SMul F T] [One F] (cmds : List (AdderCmd F)) :
    ((cmds.foldl Adder.run Adder.new).coeffs.length = (cmds.foldl Adder.run Adder.new).n) ∧
    (∀ (vs : List T) (res : T), vs.length = (cmds.foldl Adder.run Adder.new).n →
      adder (cmds.foldl Adder.run Adder.new).coeffs vs res ≠ .ub) ∧
    (∀ n, ((cmds ++ [AdderCmd.setNumber n]).foldl Adder.run Adder.new).coeffs = List.replicate n 1) ∧
    (∀ c : List F, c.length ≠ (cmds.foldl Adder.run Adder.new).n → (cmds.foldl Adder.run Adder.new).setCoeffs c = .throw) ∧
    (∀ c : List F, c.length = (cmds.foldl Adder.run Adder.new).n → ((cmds ++ [AdderCmd.setCoeffs c]).foldl Adder.run Adder.new).coeffs = c) := by
  have hinv : (cmds.foldl Adder.run Adder.new).coeffs.length = (cmds.foldl Adder.run Adder.new).n := by
    induction cmds using snoc_induction with
    | nil => simp [Adder.new, Adder.setNumber]
    | snoc l c ih =>
      rw [List.foldl_append]
      simp only [List.foldl_cons, List.foldl_nil]
      cases c with
      | setNumber n => simp [Adder.run, Adder.setNumber]
      | setCoeffs c =>
        simp only [Adder.run, Adder.setCoeffs]
        by_cases h : (List.foldl Adder.run Adder.new l).n ≠ c.length
        · rw [if_pos h]; exact ih
        · rw [if_neg h]; simp only; omega
  refine ⟨hinv, ?_, ?_, ?_, ?_⟩
  · intro vs res h
    cases vs with
    | nil =>
      rw [adder, if_neg (by rw [hinv]; omega)]
      simp
    | cons v vs =>
      rw [C49_adder _ _ _ (by simp) (by rw [h, hinv])]
      simp
  · intro n
    simp [List.foldl_append, Adder.run, Adder.setNumber]
  · intro c h
    rw [Adder.setCoeffs, if_pos (fun e => h e.symm)]
  · intro c h
    rw [List.foldl_append]
    simp only [List.foldl_cons, List.foldl_nil, Adder.run, Adder.setCoeffs]
    rw [if_neg (by omega)]

example : (([.setNumber 3, .setCoeffs [1, 2, 3], .setCoeffs [1]] : List (AdderCmd ℚ)).foldl Adder.run Adder.new) =
    ⟨3, [1, 2, 3]⟩ := by
  simp [Adder.run, Adder.setNumber, Adder.setCoeffs]

/-- **C49, counterexample.** An input added from C++ with `addSignal` gets no coefficient: the sum is then undefined. -/
theorem C49_addSignal_counterexample (v1 v2 v3 res : ℚ) :
    adder (Adder.addSignal (Adder.new : Adder ℚ)).coeffs [v1, v2, v3] res = .ub := by
  simp [adder, Adder.addSignal, Adder.new, Adder.setNumber]

/-- **C49, no input.** With no input the adder leaves its output as it was: two output buffers give two sums. -/
theorem C49_adder_stale_counterexample : ¬ ∀ r1 r2 : ℚ, adder ([] : List ℚ) ([] : List ℚ) r1 = adder ([] : List ℚ) [] r2 := by
  intro h
  have := h 0 1
  simp [adder] at this

/-! ### C49: multiplier -/

/-- **C49, multiplier.** The ordered product of the inputs, the identity when there is none. -/
theorem C49_multiplier {T : Type} [Monoid T] (vs : List T) : multiplier vs = vs.prod := by
  cases vs with
  | nil => rfl
  | cons v vs =>
    have : ∀ (l : List T) (a : T), l.foldl (· * ·) a = a * l.prod := by
      intro l
      induction l with
      | nil => intro a; simp
      | cons b l ih => intro a; rw [List.foldl_cons, ih, List.prod_cons, mul_assoc]
    rw [multiplier, this, List.prod_cons]

/-- **C49, elementwise multiplier.** Vectors of one common size: component `i` of the output is the product of the components
`i`. -/
theorem C49_multiplier_vector [CommMonoid F] (n : Nat) (v : List F) (vs : List (List F)) (h : ∀ w ∈ v :: vs, w.length = n) :
    ∃ res, multiplierVector (v :: vs) = .ok res ∧ res.length = n ∧
      ∀ i, i < n → res[i]? = some (((v :: vs).map fun w => w.getD i 1).prod) := by
  rw [multiplierVector]
  have main : ∀ (vs : List (List F)) (v : List F), v.length = n → (∀ w ∈ vs, w.length = n) →
      ∃ res, mulVectorLoop vs v = .ok res ∧ res.length = n ∧
        ∀ i, i < n → res[i]? = some (v.getD i 1 * (vs.map fun w => w.getD i 1).prod) := by
    intro vs
    induction vs with
    | nil =>
      intro v hv _
      refine ⟨v, rfl, hv, fun i hi => ?_⟩
      simp [List.getD, List.getElem?_eq_getElem (show i < v.length by omega)]
    | cons w vs ih =>
      intro v hv hw
      have h1 := hw w (by simp)
      obtain ⟨res, r1, r2, r3⟩ := ih (List.zipWith (· * ·) v w) (by simp [hv, h1]) (fun w hw' => hw w (by simp [hw']))
      refine ⟨res, ?_, r2, ?_⟩
      · rw [mulVectorLoop, mulArrays, if_neg (by omega), Outcome.bind_ok, r1]
      · intro i hi
        rw [r3 i hi]
        have hz : i < (List.zipWith (· * ·) v w).length := by rw [List.length_zipWith]; omega
        simp [List.getD, List.getElem?_eq_getElem hz, List.getElem?_eq_getElem (show i < v.length by omega),
          List.getElem?_eq_getElem (show i < w.length by omega), mul_assoc]
  obtain ⟨res, r1, r2, r3⟩ := main vs v (h v (by simp)) (fun w hw => h w (by simp [hw]))
  exact ⟨res, r1, r2, fun i hi => by simpa using r3 i hi⟩

example : (∀ w ∈ [[1, 2], [3, 4], [5, 6]], w.length = 2) ∧ multiplierVector [[1, 2], [3, 4], [5, 6]] = .ok [15, 48] := by
  simp [multiplierVector, mulVectorLoop, mulArrays]

/-- **C49, elementwise multiplier of different sizes.** Undefined. -/
theorem C49_multiplier_vector_sizes [Mul F] (v w : List F) (vs : List (List F)) (h : v.length ≠ w.length) :
    multiplierVector (v :: w :: vs) = .ub := by
  rw [multiplierVector, mulVectorLoop, mulArrays, if_pos h]
  rfl

/-! ### C49: boolean operators -/

/-- **C49, boolean operators.** With at least one input, the conjunction or the disjunction of all the inputs, whatever the
output held. -/
theorem C49_bool (vs : List Bool) (hne : vs ≠ []) (res : Bool) :
    boolOp true vs res = vs.all id ∧ boolOp false vs res = vs.any id := by
  cases vs with
  | nil => exact absurd rfl hne
  | cons v vs =>
    simp only [boolOp]
    have main : ∀ (vs : List Bool) (r : Bool), boolLoop true vs r = (r && vs.all id) ∧ boolLoop false vs r = (r || vs.any id) := by
      intro vs
      induction vs with
      | nil => intro r; simp [boolLoop]
      | cons w vs ih =>
        intro r
        cases r <;> simp [boolLoop, ih]
    simpa using main vs v

example : boolOp true [true, false, true] true = false ∧ boolOp false [false, true, false] false = true := by decide

/-- **C49, counterexample.** A boolean operator starts without input; its output is then whatever it was. -/
theorem C49_bool_empty_counterexample : ¬ ∀ b r1 r2 : Bool, boolOp b [] r1 = boolOp b [] r2 := by
  intro h
  exact absurd (h true true false) (by decide)

/-! ### C79: comparisons and weighted sums -/

/-- **C79, comparison.** For two vectors of one size, the output says whether the first is less (or less or equal, as
configured) than the second in every component (or in one of them); undefined for different sizes. -/
theorem C79_compare [LinearOrder F] (any equal : Bool) (a b : List F) :
    (a.length ≠ b.length → compareVectors any equal a b = .ub) ∧
    (a.length = b.length →
      ∃ r, compareVectors any equal a b = .ok r ∧
        (r = true ↔ match any, equal with
          | false, false => ∀ (i : Nat) (x y : F), a[i]? = some x → b[i]? = some y → x < y
          | false, true => ∀ (i : Nat) (x y : F), a[i]? = some x → b[i]? = some y → x ≤ y
          | true, false => ∃ (i : Nat) (x y : F), a[i]? = some x ∧ b[i]? = some y ∧ x < y
          | true, true => ∃ (i : Nat) (x y : F), a[i]? = some x ∧ b[i]? = some y ∧ x ≤ y)) := by
  constructor
  · intro h
    rw [compareVectors, if_pos h]
  · intro h
    have hall : ∀ (p : F → F → Bool), ((List.zipWith p a b).all id = true ↔
        ∀ (i : Nat) (x y : F), a[i]? = some x → b[i]? = some y → p x y = true) := by
      intro p
      clear h
      induction a generalizing b with
      | nil => simp
      | cons x a ih =>
        cases b with
        | nil => simp
        | cons y b =>
          simp only [List.zipWith_cons_cons, List.all_cons, id, Bool.and_eq_true]
          rw [ih]
          constructor
          · rintro ⟨h1, h2⟩ i x' y' hx hy
            cases i with
            | zero => simp at hx hy; subst hx hy; exact h1
            | succ i => simp at hx hy; exact h2 i x' y' hx hy
          · intro h
            exact ⟨h 0 x y rfl rfl, fun i x' y' hx hy => h (i + 1) x' y' (by simpa using hx) (by simpa using hy)⟩
    have hany : ∀ (p : F → F → Bool), ((List.zipWith p a b).any id = true ↔
        ∃ (i : Nat) (x y : F), a[i]? = some x ∧ b[i]? = some y ∧ p x y = true) := by
      intro p
      clear h hall
      induction a generalizing b with
      | nil => simp
      | cons x a ih =>
        cases b with
        | nil => simp
        | cons y b =>
          simp only [List.zipWith_cons_cons, List.any_cons, id, Bool.or_eq_true]
          rw [ih]
          constructor
          · rintro (h1 | ⟨i, x', y', hx, hy, hp⟩)
            · exact ⟨0, x, y, rfl, rfl, h1⟩
            · exact ⟨i + 1, x', y', by simpa using hx, by simpa using hy, hp⟩
          · rintro ⟨i, x', y', hx, hy, hp⟩
            cases i with
            | zero => simp at hx hy; subst hx hy; exact Or.inl hp
            | succ i => exact Or.inr ⟨i, x', y', by simpa using hx, by simpa using hy, hp⟩
    unfold compareVectors
    rw [if_neg (by omega)]
    cases any <;> cases equal <;> refine ⟨_, rfl, ?_⟩
    · simpa using hall (fun x y => decide (x < y))
    · simpa using hall (fun x y => decide (x ≤ y))
    · simpa using hany (fun x y => decide (x < y))
    · simpa using hany (fun x y => decide (x ≤ y))

example : compareVectors false false [1, 2] [2, 2] = .ok false ∧ compareVectors false true [1, 2] [2, 2] = .ok true ∧
    compareVectors true false [1, 2] [2, 2] = .ok true := by decide

/-- **C79, weighted sum.** Once both gains are set, the output is the weighted sum; before, it is undefined. -/
theorem C79_weighted {T : Type} [AddCommMonoid T] [SMul F T] (v1 v2 : T) :
    (∀ g1 g2 : F, weightedAdd (some g1) (some g2) v1 v2 = .ok (g1 • v1 + g2 • v2)) ∧
    (∀ g : Option F, weightedAdd none g v1 v2 = .ub ∧ weightedAdd g none v1 v2 = .ub) := by
  refine ⟨fun _ _ => rfl, fun g => ⟨?_, ?_⟩⟩ <;> cases g <;> rfl

example : weightedAdd (some 2) (some 3) 10 1 = .ok 23 := rfl

/-! ### C80: temporal convolution -/

/-- The entity after a history of inputs, the oldest first: its memory and its output. -/
def convRun [Add F] [Mul F] [Zero F] (hist : List (List F × DMat F)) (start : List F) : List (List F) × List F :=
  hist.foldl (fun s p => convStep s.1 p.1 p.2 s.2) ([], start)

theorem convRun_mem [Add F] [Mul F] [Zero F] (cols : Nat) (hist : List (List F × DMat F)) (start : List F)
    (hc : ∀ p ∈ hist, p.2.cols = cols) : (convRun hist start).1 = ((hist.map (·.1)).reverse).take cols := by
  induction hist using snoc_induction with
  | nil => simp [convRun]
  | snoc l p ih =>
    have ih := ih (fun q hq => hc q (by simp [hq]))
    have hp := hc p (by simp)
    unfold convRun at ih ⊢
    rw [List.foldl_append]
    simp only [List.foldl_cons, List.foldl_nil, convStep, ih, hp, List.map_append, List.map_cons, List.map_nil,
      List.reverse_append, List.reverse_cons, List.reverse_nil, List.nil_append, List.cons_append]
    unfold convStep at ih
    simp only at ih
    cases cols with
    | zero => simp
    | succ c => simp [ih, List.take_take]

theorem convLoop_ok [CommSemiring F] (m : DMat F) (mem : List (List F)) (j : Nat) (res : List F)
    (hm : ∀ s ∈ mem, s.length = m.rows) (hr : res.length = m.rows) :
    (convLoop m mem j res).length = m.rows ∧ ∀ i, i < m.rows → (convLoop m mem j res)[i]? =
      some (res.getD i 0 + ((mem.zipIdx j).map fun p => m.val i p.2 * p.1.getD i 0).sum) := by
  induction mem generalizing j res with
  | nil =>
    refine ⟨hr, fun i hi => ?_⟩
    simp [convLoop, List.getD, List.getElem?_eq_getElem (show i < res.length by omega)]
  | cons s mem ih =>
    have hs := hm s (by simp)
    obtain ⟨i1, i2⟩ := ih (j + 1) ((List.range m.rows).zipWith (fun i p => p.1 + m.val i j * p.2) (res.zip s))
      (fun s hs => hm s (by simp [hs])) (by simp [hr, hs])
    rw [convLoop, if_neg (by omega)]
    refine ⟨i1, fun i hi => ?_⟩
    rw [i2 i hi]
    have h1 : i < res.length := by omega
    have h2 : i < s.length := by omega
    simp [List.getD, hi, h1, h2, List.getElem?_eq_getElem h1, List.getElem?_eq_getElem h2, add_assoc, List.zipIdx_cons]

/-- **C80.** After any history of inputs, for coefficient matrices that have always the same number of columns, component `i`
of the output is the sum over the last inputs, newest first, of the input multiplied by the coefficient of its age; only as
many inputs as columns are used. -/
theorem C80_convolution [CommSemiring F] (cols : Nat) (hist : List (List F × DMat F)) (v : List F) (m : DMat F) (start : List F)
    (hc : ∀ p ∈ hist, p.2.cols = cols) (hm : m.cols = cols)
    (hs : ∀ w ∈ ((v :: (hist.map (·.1)).reverse).take cols), w.length = m.rows) :
    (convRun (hist ++ [(v, m)]) start).2.length = m.rows ∧
    ∀ i, i < m.rows → (convRun (hist ++ [(v, m)]) start).2[i]? =
      some ((((v :: (hist.map (·.1)).reverse).take cols).zipIdx.map fun p => m.val i p.2 * p.1.getD i 0).sum) := by
  have hmem := convRun_mem cols (hist ++ [(v, m)]) start (by
    intro p hp
    rcases List.mem_append.mp hp with hp | hp
    · exact hc p hp
    · simp at hp; rw [hp]; exact hm)
  have hout : (convRun (hist ++ [(v, m)]) start).2 =
      convolution (convRun (hist ++ [(v, m)]) start).1 m (convRun hist start).2 := by
    unfold convRun
    rw [List.foldl_append]
    rfl
  rw [hout, hmem]
  simp only [List.map_append, List.map_cons, List.map_nil, List.reverse_append, List.reverse_cons, List.reverse_nil,
    List.nil_append, List.cons_append]
  rw [convolution, if_neg (by rw [List.length_take]; omega)]
  obtain ⟨r1, r2⟩ := convLoop_ok m _ 0 (List.replicate m.rows 0) hs (by simp)
  refine ⟨r1, fun i hi => ?_⟩
  rw [r2 i hi]
  simp [List.getD, hi]

example : (convRun [([1], ⟨1, 2, fun _ j => 10 ^ j⟩), ([2], ⟨1, 2, fun _ j => 10 ^ j⟩), ([3], ⟨1, 2, fun _ j => 10 ^ j⟩)]
    ([] : List ℕ)).2 = [23] := by decide

/-- **C80, other sizes.** An input of another size ends the sum: the older inputs are ignored. -/
theorem C80_size_change [CommSemiring F] (m : DMat F) (recent : List (List F)) (w : List F) (older : List (List F))
    (res : List F) (hw : w.length ≠ m.rows) (hr : ∀ s ∈ recent, s.length = m.rows)
    (hl : (recent ++ w :: older).length ≤ m.cols) :
    convolution (recent ++ w :: older) m res = convolution recent m res := by
  have main : ∀ (recent : List (List F)) (j : Nat) (r : List F), (∀ s ∈ recent, s.length = m.rows) →
      convLoop m (recent ++ w :: older) j r = convLoop m recent j r := by
    intro recent
    induction recent with
    | nil => intro j r _; simp [convLoop, hw]
    | cons s recent ih =>
      intro j r h
      have hs := h s (by simp)
      rw [List.cons_append, convLoop, if_neg (by omega), convLoop, if_neg (by omega), ih _ _ (fun s hs => h s (by simp [hs]))]
  rw [convolution, if_neg (by omega), convolution, if_neg (by simp only [List.length_append, List.length_cons] at hl; omega),
    main _ _ _ hr]

example : convolution [[1], [2, 2], [3]] ⟨1, 3, fun _ j => 10 ^ j⟩ ([] : List ℕ) = [1] := by decide

/-! ### C82: selections of a matrix -/

/-- **C82, block.** The block asked for; undefined outside the matrix. -/
theorem C82_matrix_selector (i0 i1 j0 j1 : Nat) (m : DMat F) :
    (i0 ≤ i1 → i1 ≤ m.rows → j0 ≤ j1 → j1 ≤ m.cols →
      ∃ r, matrixSelector (some (i0, i1)) (some (j0, j1)) m = .ok r ∧ r.rows = i1 - i0 ∧ r.cols = j1 - j0 ∧
        ∀ i j, r.val i j = m.val (i0 + i) (j0 + j)) ∧
    (i1 < i0 ∨ m.rows < i1 ∨ j1 < j0 ∨ m.cols < j1 →
      matrixSelector (some (i0, i1)) (some (j0, j1)) m = .ub) := by
  constructor
  · intro h1 h2 h3 h4
    simp only [matrixSelector]
    rw [if_neg (by omega), if_neg (by omega)]
    refine ⟨_, rfl, by simp only; omega, by simp only; omega, fun i j => ?_⟩
    simp only
    congr 1
  · intro h
    simp only [matrixSelector]
    rw [if_pos (by omega)]

example : ∃ r, matrixSelector (some (1, 2)) (some (0, 3)) (⟨2, 3, fun i j => 10 * i + j⟩ : DMat ℕ) = .ok r ∧
    r.rows = 1 ∧ r.val 0 2 = 12 := ⟨_, rfl, rfl, rfl⟩

/-- **C82, column.** The part of the column asked for; undefined outside the matrix. -/
theorem C82_column_selector (i0 i1 j : Nat) (m : DMat F) :
    (i0 ≤ i1 → i1 ≤ m.rows → j < m.cols →
      ∃ r, columnSelector (some (i0, i1)) (some j) m = .ok r ∧ r.length = i1 - i0 ∧
        ∀ k, k < i1 - i0 → r[k]? = some (m.val (i0 + k) j)) ∧
    (i1 < i0 ∨ m.rows < i1 ∨ m.cols ≤ j → columnSelector (some (i0, i1)) (some j) m = .ub) := by
  constructor
  · intro h1 h2 h3
    simp only [columnSelector]
    rw [if_neg (by omega), if_neg (by omega)]
    refine ⟨_, rfl, by simp, fun k hk => ?_⟩
    rw [List.getElem?_map, List.getElem?_range (by omega)]
    simp only [Option.map_some]
    congr 2
  · intro h
    simp only [columnSelector]
    rw [if_pos (by omega)]

example : columnSelector (some (1, 3)) (some 1) (⟨3, 2, fun i j => 10 * i + j⟩ : DMat ℕ) = .ok [11, 21] := by decide

/-- **C82, unset bounds.** Selections are undefined before their commands were used. -/
theorem C82_unset (m : DMat F) (rowb colb : Option (Int × Int)) (col : Option Int) :
    matrixSelector none colb m = .ub ∧ matrixSelector rowb none m = .ub ∧ columnSelector none col m = .ub ∧
      columnSelector rowb none m = .ub := by
  refine ⟨?_, ?_, ?_, ?_⟩
  · cases colb <;> rfl
  · cases rowb <;> rfl
  · cases col <;> rfl
  · cases rowb <;> rfl

/-- **C82, transposition.** Transposing twice gives the matrix back, and entries are exchanged. -/
theorem C82_transpose (m : DMat F) :
    transpose (transpose m) = m ∧ (transpose m).rows = m.cols ∧ (transpose m).cols = m.rows ∧
      ∀ i j, (transpose m).val i j = m.val j i := ⟨rfl, rfl, rfl, fun _ _ => rfl⟩

/-- **C82, diagonal.** The matrix has the vector on its diagonal and zeros elsewhere; the size given to the command `resize`
has no effect. -/
theorem C82_diagonal [Zero F] (nbr nbc : Nat) (v : List F) :
    (diagonal nbr nbc v).rows = v.length ∧ (diagonal nbr nbc v).cols = v.length ∧
    (∀ i (h : i < v.length), (diagonal nbr nbc v).val i i = v[i]) ∧
    (∀ i j, i ≠ j → (diagonal nbr nbc v).val i j = 0) := by
  refine ⟨rfl, rfl, fun i h => ?_, fun i j h => ?_⟩
  · simp [diagonal, h]
  · simp [diagonal, h]

/-- **C82, counterexample.** The size asked for with `resize` is not the size of the result. -/
theorem C82_diagonal_resize_counterexample :
    ¬ ∀ (nbr nbc : Nat) (v : List ℕ), (diagonal nbr nbc v).rows = nbr ∧ (diagonal nbr nbc v).cols = nbc := by
  intro h
  exact absurd (h 2 2 [1]).1 (by decide)

end Verif.Operators
