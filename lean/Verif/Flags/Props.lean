import Verif.Flags.Lemmas

/-!
# Properties C01-C04 of selection masks

`call f i` is the public reading `f(i)`. All statements are about readings of the mask, i.e. about
what a user of the class can observe.
-/

namespace Verif.Flags

/-! ## C01: masks combine pointwise -/

/-- C01. Reading a mask at a non-negative index never has undefined behaviour nor throws. -/
theorem C01_read_total (f : Flags) (i : Int) (hi : 0 ≤ i) : ∃ x, call f i = .ok x :=
  ⟨_, call_nonneg f i hi⟩

/-- C01. `(a & b)(i) = a(i) && b(i)` for every index, whatever the explicit lengths. -/
theorem C01_and_pointwise (a b : Flags) (i : Int) (hi : 0 ≤ i) :
    ∃ x y, call a i = .ok x ∧ call b i = .ok y ∧ call (and a b) i = .ok (x && y) :=
  ⟨_, _, call_nonneg a i hi, call_nonneg b i hi, by
    rw [call_nonneg _ i hi]; exact congrArg _ (val_and a b _)⟩

/-- C01. `(a | b)(i) = a(i) || b(i)`. -/
theorem C01_or_pointwise (a b : Flags) (i : Int) (hi : 0 ≤ i) :
    ∃ x y, call a i = .ok x ∧ call b i = .ok y ∧ call (or a b) i = .ok (x || y) :=
  ⟨_, _, call_nonneg a i hi, call_nonneg b i hi, by
    rw [call_nonneg _ i hi]; exact congrArg _ (val_or a b _)⟩

/-- C01. `(!a)(i) = !a(i)`. -/
theorem C01_not_pointwise (a : Flags) (i : Int) (hi : 0 ≤ i) :
    ∃ x, call a i = .ok x ∧ call (not a) i = .ok (!x) :=
  ⟨_, call_nonneg a i hi, by rw [call_nonneg _ i hi]; exact congrArg _ (val_not a _)⟩

/-- C01. The in-place forms give the same readings as the binary operators. -/
theorem C01_assign_forms (a b : Flags) (i : Int) (hi : 0 ≤ i) :
    ∃ x y, call a i = .ok x ∧ call b i = .ok y ∧
      call (andAssign a b) i = .ok (x && y) ∧ call (orAssign a b) i = .ok (x || y) :=
  ⟨_, _, call_nonneg a i hi, call_nonneg b i hi,
    by rw [call_nonneg _ i hi]; exact congrArg _ (val_and a b _),
    by rw [call_nonneg _ i hi]; exact congrArg _ (val_or a b _)⟩

/-- Masks of different lengths with different default bits: the hypotheses are met beyond both. -/
example : call (and ⟨[true, false], true⟩ ⟨[true, true, false, true], false⟩) 3 = .ok true ∧
    call (and ⟨[true, false], true⟩ ⟨[true, true, false, true], false⟩) 9 = .ok false ∧
    call (or ⟨[true, false], true⟩ ⟨[true, true, false, true], false⟩) 9 = .ok true := by decide

/-- The precondition `0 ≤ i` is needed: a negative index on a mask with an explicit part, or without,
passes the range test and is undefined behaviour. -/
theorem C01_negative_index_ub (f : Flags) (i : Int) (hi : i < 0) : call f i = .ub := by
  unfold call
  have : i < (f.flags.length : Int) := by omega
  simp [this, hi]

example : call ⟨[true], true⟩ (-1) = .ub := by decide

/-! ## C02: conversion to bool -/

/-- C02. A mask converts to `true` exactly when some non-negative index reads `true`. -/
theorem C02_bool_iff_some_selected (f : Flags) :
    toBool f = true ↔ ∃ i : Int, 0 ≤ i ∧ call f i = .ok true := by
  constructor
  · intro h
    unfold toBool at h
    by_cases ho : f.outOfRangeFlag = true
    · refine ⟨(f.flags.length : Int), by omega, ?_⟩
      rw [call_natCast]
      simp [val, ho]
    · simp only [ho] at h
      obtain ⟨b, hb, hbt⟩ := List.any_eq_true.mp h
      obtain ⟨n, hn, hget⟩ := List.mem_iff_getElem.mp hb
      refine ⟨(n : Int), by omega, ?_⟩
      rw [call_natCast]
      simp only [id] at hbt
      simp [val, hn, hget, hbt]
  · rintro ⟨i, hi, h⟩
    rw [call_nonneg f i hi] at h
    have hv : val f i.toNat = true := by simpa using h
    unfold toBool
    split
    · rfl
    · rename_i ho
      unfold val at hv
      cases hg : f.flags[i.toNat]? with
      | none => simp [hg] at hv; simp [hv] at ho
      | some b =>
        simp [hg] at hv
        subst hv
        exact List.any_eq_true.mpr ⟨true, List.mem_of_getElem? hg, rfl⟩

/-- C02, negative form: `false` means that nothing at all is selected. -/
theorem C02_bool_false_iff_nothing (f : Flags) :
    toBool f = false ↔ ∀ i : Int, 0 ≤ i → call f i = .ok false := by
  constructor
  · intro h i hi
    obtain ⟨x, hx⟩ := C01_read_total f i hi
    cases x with
    | false => exact hx
    | true =>
      have := (C02_bool_iff_some_selected f).mpr ⟨i, hi, hx⟩
      simp [this] at h
  · intro h
    cases hb : toBool f with
    | false => rfl
    | true =>
      obtain ⟨i, hi, hx⟩ := (C02_bool_iff_some_selected f).mp hb
      rw [h i hi] at hx
      simp at hx

example : toBool ⟨[false, false, true], false⟩ = true ∧ toBool ⟨[false, false], false⟩ = false ∧
    toBool ⟨[false], true⟩ = true := by decide

/-! ## C03: edits touch one index only -/

/-- C03. `set(k)`: an explicit index `k` then reads `true`, every other index reads as before; beyond
the explicit part nothing changes. -/
theorem C03_set_frame (f : Flags) (k : Nat) (i : Int) (hi : 0 ≤ i) :
    call (set f k) i = if i = (k : Int) ∧ k < f.flags.length then .ok true else call f i := by
  obtain ⟨n, rfl⟩ := Int.eq_ofNat_of_zero_le hi
  simp only [call_natCast]
  unfold set val
  by_cases hk : k < f.flags.length
  · by_cases hnk : n = k
    · subst hnk; simp [hk]
    · have : ¬ ((n : Int) = (k : Int)) := by omega
      have h2 : k ≠ n := by omega
      simp [hk, this, h2]
  · simp [hk]

/-- C03. `unset(k)`, the same with `false`. -/
theorem C03_unset_frame (f : Flags) (k : Nat) (i : Int) (hi : 0 ≤ i) :
    call (unset f k) i = if i = (k : Int) ∧ k < f.flags.length then .ok false else call f i := by
  obtain ⟨n, rfl⟩ := Int.eq_ofNat_of_zero_le hi
  simp only [call_natCast]
  unfold unset val
  by_cases hk : k < f.flags.length
  · by_cases hnk : n = k
    · subst hnk; simp [hk]
    · have : ¬ ((n : Int) = (k : Int)) := by omega
      have h2 : k ≠ n := by omega
      simp [hk, this, h2]
  · simp [hk]

/-- C03. `add(b)` makes exactly one more index explicit: the first non-explicit index now reads `b`,
all the others read as before. -/
theorem C03_add_frame (f : Flags) (b : Bool) (i : Int) (hi : 0 ≤ i) :
    call (add f b) i = if i = (f.flags.length : Int) then .ok b else call f i := by
  obtain ⟨n, rfl⟩ := Int.eq_ofNat_of_zero_le hi
  simp only [call_natCast]
  unfold add val
  by_cases h : n = f.flags.length
  · subst h; simp
  · have h' : ¬ ((n : Int) = (f.flags.length : Int)) := by omega
    simp only [h', if_false]
    by_cases hlt : n < f.flags.length
    · simp [hlt, List.getElem?_append_left]
    · have h1 : (f.flags ++ [b])[n]? = none := List.getElem?_eq_none (by simp; omega)
      have h2 : f.flags[n]? = none := List.getElem?_eq_none (by omega)
      rw [h1, h2]

/-- What a history of calls should do to the reading at one index `i`, given how many explicit bits the
mask has: written directly on the pair (explicit length, reading at `i`), without reference to the
model's representation. -/
def specRead (i : Nat) : Nat × Bool → Op → Nat × Bool
  | (n, x), .add b => (n + 1, if i = n then b else x)
  | (n, x), .set k => (n, if i = k ∧ k < n then true else x)
  | (n, x), .unset k => (n, if i = k ∧ k < n then false else x)
  | (n, x), .andAssign g => (max n g.flags.length, x && ((g.flags[i]?).getD g.outOfRangeFlag))
  | (n, x), .orAssign g => (max n g.flags.length, x || ((g.flags[i]?).getD g.outOfRangeFlag))

theorem length_growTo (l : List Bool) (n : Nat) (b : Bool) :
    (growTo l n b).length = max l.length n := by
  unfold growTo
  split
  · simp; omega
  · omega

/-- C03, over histories: after any sequence of mutating calls on a mask, every index reads what the
index-by-index specification says. -/
theorem C03_history (f : Flags) (ops : List Op) (i : Nat) :
    ∃ x, call f i = .ok x ∧
      call (run f ops) i = .ok (ops.foldl (specRead i) (f.flags.length, x)).2 := by
  refine ⟨val f i, call_natCast f i, ?_⟩
  rw [call_natCast]
  congr 1
  suffices h : ∀ (ops : List Op) (f : Flags),
      ((run f ops).flags.length, val (run f ops) i)
        = ops.foldl (specRead i) (f.flags.length, val f i) by
    rw [← h ops f]
  intro ops
  induction ops with
  | nil => intro f; rfl
  | cons op ops ih =>
    intro f
    simp only [run, List.foldl_cons]
    have := ih (step f op)
    unfold run at this
    rw [this]
    congr 1
    have key : ∀ x y : Bool, (Outcome.ok x = Outcome.ok y) → x = y := by
      intro x y h; simpa using h
    cases op with
    | add b =>
      have h := C03_add_frame f b i (by omega)
      simp only [call_natCast] at h
      simp only [step, specRead]
      refine Prod.ext (by simp [add]) ?_
      simp only
      apply key
      rw [h]
      by_cases h1 : i = f.flags.length
      · simp [h1]
      · have : ¬ ((i : Int) = f.flags.length) := by omega
        simp [h1, this]
    | set k =>
      have h := C03_set_frame f k i (by omega)
      simp only [call_natCast] at h
      simp only [step, specRead]
      refine Prod.ext (by simp [set]; split <;> simp) ?_
      simp only
      apply key
      rw [h]
      by_cases h1 : i = k ∧ k < f.flags.length
      · have h2 : (i : Int) = (k : Int) := by omega
        simp [h1]
      · have : ¬ ((i : Int) = (k : Int) ∧ k < f.flags.length) := by omega
        simp [h1, this]
    | unset k =>
      have h := C03_unset_frame f k i (by omega)
      simp only [call_natCast] at h
      simp only [step, specRead]
      refine Prod.ext (by simp [unset]; split <;> simp) ?_
      simp only
      apply key
      rw [h]
      by_cases h1 : i = k ∧ k < f.flags.length
      · have h2 : (i : Int) = (k : Int) := by omega
        simp [h1]
      · have : ¬ ((i : Int) = (k : Int) ∧ k < f.flags.length) := by omega
        simp [h1, this]
    | andAssign g =>
      simp only [step, specRead]
      refine Prod.ext ?_ (val_and f g i)
      simp [andAssign, length_combine, length_growTo]
    | orAssign g =>
      simp only [step, specRead]
      refine Prod.ext ?_ (val_or f g i)
      simp [orAssign, length_combine, length_growTo]

example : call (run ⟨[false], false⟩ [.add true, .set 0, .unset 1, .set 7]) 0 = .ok true ∧
    call (run ⟨[false], false⟩ [.add true, .set 0, .unset 1, .set 7]) 7 = .ok false := by decide

/-! ## C04: text form -/

/-- The bits a text should denote: spaces ignored, `'1'` is true. -/
def specBits (s : List Char) : List Bool := (s.filter (· ≠ ' ')).map (· = '1')

/-- C04. Reading back a printed mask restores the explicit bits (into any object `g`), without
exception. The default bit is not part of the text: `g` keeps its own. -/
theorem C04_print_parse (f g : Flags) :
    parse g (print f) = (⟨f.flags, g.outOfRangeFlag⟩, false) := by
  unfold parse print
  suffices h : ∀ l : List Bool,
      parseLoop [] (l.map (fun b => if b then '1' else '0')) = (l, false) by
    simp [h]
  intro l
  induction l with
  | nil => rfl
  | cons b l ih =>
    cases b <;> simp only [List.map_cons, parseLoop] <;>
      simp <;> rw [parseLoop_append] <;> simp [ih]

/-- C04. A text is accepted exactly when it has only `0`, `1` and spaces, and then gives the bits in
order. -/
theorem C04_parse_accepts (g : Flags) (s : List Char) :
    (parse g s).2 = false ↔ ∀ c ∈ s, c = '0' ∨ c = '1' ∨ c = ' ' := by
  unfold parse
  simp only
  induction s with
  | nil => simp [parseLoop]
  | cons c cs ih =>
    simp only [parseLoop, List.mem_cons, forall_eq_or_imp]
    split
    · rw [parseLoop_append]; simp_all
    · split
      · rw [parseLoop_append]; simp_all
      · split
        · simp_all
        · simp_all

/-- C04. The bits denoted by an accepted text. -/
theorem C04_parse_value (g : Flags) (s : List Char) (h : ∀ c ∈ s, c = '0' ∨ c = '1' ∨ c = ' ') :
    parse g s = (⟨specBits s, g.outOfRangeFlag⟩, false) := by
  unfold parse specBits
  suffices h : parseLoop [] s = ((s.filter (· ≠ ' ')).map (fun c => decide (c = '1')), false) by
    simp [h]
  induction s with
  | nil => rfl
  | cons c cs ih =>
    have hc := h c (by simp)
    have ih := ih (fun c hc => h c (by simp [hc]))
    rcases hc with rfl | rfl | rfl <;>
      simp only [parseLoop] <;> simp <;> first | (rw [parseLoop_append]; simp [ih]) | simp [ih]

example : (parse ⟨[], true⟩ "01 1".toList) = (⟨[false, true, true], true⟩, false) := by decide
example : (parse ⟨[], true⟩ "01x1".toList).2 = true := by decide

/-- C04, constructor from a C string: accepted exactly when the text has only `0`, `1`, spaces. -/
theorem C04_ofChars_accepts (s : List Char) :
    (∃ f, ofChars s = .ok f) ↔ ∀ c ∈ s, c = '0' ∨ c = '1' ∨ c = ' ' := by
  unfold ofChars
  induction s with
  | nil => simp [charsToBits]
  | cons c cs ih =>
    simp only [charsToBits, List.mem_cons, forall_eq_or_imp]
    have hmap : ∀ (o : Outcome (List Bool)) (b : Bool),
        (∃ f, (o.map (b :: ·)).map (fun l => (⟨l, false⟩ : Flags)) = .ok f) ↔
        (∃ f, o.map (fun l => (⟨l, false⟩ : Flags)) = .ok f) := by
      intro o b; cases o <;> simp
    split
    · rw [hmap, ih]; simp_all
    · split
      · rw [hmap, ih]; simp_all
      · split
        · rw [hmap, ih]; simp_all
        · simp_all

/-- C04, constructor from a C string without spaces: it denotes the same bits as reading the text from
a stream. -/
theorem C04_ofChars_agrees_partial (s : List Char) (h : ∀ c ∈ s, c = '0' ∨ c = '1') :
    ofChars s = .ok ⟨specBits s, false⟩ := by
  unfold ofChars specBits
  suffices h : charsToBits s = .ok ((s.filter (· ≠ ' ')).map (fun c => decide (c = '1'))) by
    simp [h]
  induction s with
  | nil => rfl
  | cons c cs ih =>
    have hc := h c (by simp)
    have ih := ih (fun c hc => h c (by simp [hc]))
    rcases hc with rfl | rfl <;> simp [charsToBits, ih]

/-- Disagreement: with spaces the two readers differ. The constructor keeps a `false` slot for each
space, the stream operator skips it, so the same text selects different indices. -/
theorem C04_spaces_disagree_counterexample :
    ∃ (s : List Char) (f : Flags) (i : Int), ofChars s = .ok f ∧ 0 ≤ i ∧
      call f i ≠ call (parse ⟨[], false⟩ s).1 i :=
  ⟨" 1".toList, ⟨[false, true], false⟩, 0, by decide, by decide, by decide⟩

/-- Disagreement: the default bit is lost in the text form, so a printed mask read into a fresh object
need not select the same indices. -/
theorem C04_default_lost_counterexample :
    ∃ (f : Flags) (i : Int), 0 ≤ i ∧ call (parse (ofBool false) (print f)).1 i ≠ call f i :=
  ⟨ofBool true, 0, by decide, by decide⟩

end Verif.Flags
