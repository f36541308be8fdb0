import Verif.KernelMem.Model
import Mathlib.Data.List.Basic

/-!
# C109: the memory of the projectors

When no task is twice in the stack, the levels get the projectors of the mathematical description, whatever was computed before with
the same tasks. The views stay inside the buffers, which belong each to one task and only grow; a computation that is repeated allocates
nothing. A task that is twice in the stack makes the code read and write the same buffer in one product.
-/

namespace Verif.KernelMem

variable {C T : Type} [DecidableEq T]

/-- The projectors that the levels get, without memory: each enabled level replaces the projector, a disabled one keeps it, and the
levels after a projector without column are not processed. -/
def projectors (cols : Nat) (x : Option C) : List (Level C T) → List (Option C)
  | [] => []
  | [_] => [x]
  | l :: l' :: ls =>
    match l.compute x with
    | none => if cols = 0 then [x] else x :: projectors cols x (l' :: ls)
    | some (c, y) => if c = 0 then [x] else x :: projectors c (some y) (l' :: ls)

/-- What holds between the computations. The view of each memory fits in its buffer, each buffer is allocated and belongs to one task,
and every allocated buffer belongs to a task. -/
structure Sound (h : Heap C T) : Prop where
  fits : ∀ t m, h.mems t = some m → m.rows * m.cols ≤ m.size
  view : ∀ t m, h.mems t = some m → m.rows * m.cols ≠ 0 → m.ptr = m.buf
  live : ∀ t m, h.mems t = some m → m.size ≠ 0 → ∃ i x, m.buf = some i ∧ h.content i = some x
  alloc : ∀ t m i, h.mems t = some m → m.buf = some i → ∃ x, h.content i = some x
  own : ∀ t t' m m' i, h.mems t = some m → h.mems t' = some m' → m.buf = some i → m'.buf = some i → t = t'
  fresh : ∀ i x, h.content i = some x → i < h.next
  kept : ∀ i x, h.content i = some x → ∃ t m, h.mems t = some m ∧ m.buf = some i

theorem Sound.new : Sound (Heap.new : Heap C T) := by
  constructor <;> intros <;> simp_all [Heap.new]

/-- Replace the buffer of a task by a new one, of size `s`. -/
theorem Sound.replace {h : Heap C T} (hs : Sound h) (t : T) (old : Option Nat) (hold : ∀ m, h.mems t = some m → m.buf = old)
    (hnone : h.mems t = none → old = none) (junk : C) (s : Nat) (p : Option Nat) (r c : Nat) (hf : r * c ≤ s)
    (hp : r * c ≠ 0 → p = (h.realloc junk old s).2) :
    Sound ((h.realloc junk old s).1.setMem t ⟨(h.realloc junk old s).2, s, p, r, c⟩) := by
  have hoth : ∀ t' m i, t' ≠ t → h.mems t' = some m → m.buf = some i → some i ≠ old := by
    intro t' m i hne hm hb ho
    cases ht : h.mems t with
    | none => rw [hnone ht] at ho; cases ho
    | some m0 => exact hne (hs.own _ _ _ _ i hm ht hb (by rw [hold m0 ht, ← ho]))
  have hlt : ∀ t' m i, h.mems t' = some m → m.buf = some i → i < h.next := by
    intro t' m i hm hb
    obtain ⟨x, hx⟩ := hs.alloc _ _ _ hm hb
    exact hs.fresh _ _ hx
  by_cases h0 : s = 0
  · subst h0
    have hrc : r * c = 0 := by omega
    constructor
    · intro t' m hm
      by_cases ht : t' = t
      · simp only [Heap.setMem, ht, if_true, Option.some.injEq] at hm; subst hm; exact hf
      · simp only [Heap.setMem, ht, if_false, Heap.realloc, if_true] at hm; exact hs.fits _ _ hm
    · intro t' m hm hne
      by_cases ht : t' = t
      · simp only [Heap.setMem, ht, if_true, Option.some.injEq] at hm; subst hm; exact absurd hrc hne
      · simp only [Heap.setMem, ht, if_false, Heap.realloc, if_true] at hm; exact hs.view _ _ hm hne
    · intro t' m hm hne
      by_cases ht : t' = t
      · simp only [Heap.setMem, ht, if_true, Option.some.injEq] at hm; subst hm; exact absurd rfl hne
      · simp only [Heap.setMem, ht, if_false, Heap.realloc, if_true] at hm
        obtain ⟨i, x, hi, hx⟩ := hs.live _ _ hm hne
        refine ⟨i, x, hi, ?_⟩
        simp only [Heap.setMem, Heap.realloc, if_true]
        rw [if_neg (hoth _ _ _ ht hm hi), hx]
    · intro t' m i hm hb
      by_cases ht : t' = t
      · simp only [Heap.setMem, ht, if_true, Option.some.injEq] at hm; subst hm; simp [Heap.realloc] at hb
      · simp only [Heap.setMem, ht, if_false, Heap.realloc, if_true] at hm
        obtain ⟨x, hx⟩ := hs.alloc _ _ _ hm hb
        refine ⟨x, ?_⟩
        simp only [Heap.setMem, Heap.realloc, if_true]
        rw [if_neg (hoth _ _ _ ht hm hb), hx]
    · intro t1 t2 m1 m2 i hm1 hm2 hb1 hb2
      by_cases ht1 : t1 = t
      · simp only [Heap.setMem, ht1, if_true, Option.some.injEq] at hm1; subst hm1; simp [Heap.realloc] at hb1
      · by_cases ht2 : t2 = t
        · simp only [Heap.setMem, ht2, if_true, Option.some.injEq] at hm2; subst hm2; simp [Heap.realloc] at hb2
        · simp only [Heap.setMem, ht1, ht2, if_false, Heap.realloc, if_true] at hm1 hm2
          exact hs.own _ _ _ _ i hm1 hm2 hb1 hb2
    · intro i x hx
      simp only [Heap.setMem, Heap.realloc, if_true] at hx ⊢
      split at hx
      · cases hx
      · exact hs.fresh _ _ hx
    · intro i x hx
      simp only [Heap.setMem, Heap.realloc, if_true] at hx ⊢
      split at hx
      · cases hx
      · rename_i hio
        obtain ⟨t', m, hm, hb⟩ := hs.kept _ _ hx
        have ht : t' ≠ t := by
          intro ht; subst ht; exact hio (by rw [← hb, hold m hm])
        exact ⟨t', m, by rw [if_neg ht, hm], hb⟩
  · constructor
    · intro t' m hm
      by_cases ht : t' = t
      · simp only [Heap.setMem, ht, if_true, Option.some.injEq] at hm; subst hm; exact hf
      · simp only [Heap.setMem, ht, if_false, Heap.realloc, h0] at hm; exact hs.fits _ _ hm
    · intro t' m hm hne
      by_cases ht : t' = t
      · simp only [Heap.setMem, ht, if_true, Option.some.injEq] at hm; subst hm; exact hp hne
      · simp only [Heap.setMem, ht, if_false, Heap.realloc, h0] at hm; exact hs.view _ _ hm hne
    · intro t' m hm hne
      by_cases ht : t' = t
      · simp only [Heap.setMem, ht, if_true, Option.some.injEq] at hm; subst hm
        exact ⟨h.next, junk, by simp [Heap.realloc, h0], by simp [Heap.setMem, Heap.realloc, h0]⟩
      · simp only [Heap.setMem, ht, if_false, Heap.realloc, h0] at hm
        obtain ⟨i, x, hi, hx⟩ := hs.live _ _ hm hne
        refine ⟨i, x, hi, ?_⟩
        have := hlt _ _ _ hm hi
        simp only [Heap.setMem, Heap.realloc, h0, if_false]
        rw [if_neg (by omega), if_neg (hoth _ _ _ ht hm hi), hx]
    · intro t' m i hm hb
      by_cases ht : t' = t
      · simp only [Heap.setMem, ht, if_true, Option.some.injEq] at hm; subst hm
        simp only [Heap.realloc, h0, if_false, Option.some.injEq] at hb
        exact ⟨junk, by simp [Heap.setMem, Heap.realloc, h0, hb]⟩
      · simp only [Heap.setMem, ht, if_false, Heap.realloc, h0] at hm
        obtain ⟨x, hx⟩ := hs.alloc _ _ _ hm hb
        refine ⟨x, ?_⟩
        have := hlt _ _ _ hm hb
        simp only [Heap.setMem, Heap.realloc, h0, if_false]
        rw [if_neg (by omega), if_neg (hoth _ _ _ ht hm hb), hx]
    · intro t1 t2 m1 m2 i hm1 hm2 hb1 hb2
      by_cases ht1 : t1 = t
      · by_cases ht2 : t2 = t
        · rw [ht1, ht2]
        · simp only [Heap.setMem, ht1, if_true, Option.some.injEq] at hm1; subst hm1
          simp only [Heap.realloc, h0, if_false, Option.some.injEq] at hb1
          simp only [Heap.setMem, ht2, if_false, Heap.realloc, h0] at hm2
          have := hlt _ _ _ hm2 hb2
          omega
      · by_cases ht2 : t2 = t
        · simp only [Heap.setMem, ht2, if_true, Option.some.injEq] at hm2; subst hm2
          simp only [Heap.realloc, h0, if_false, Option.some.injEq] at hb2
          simp only [Heap.setMem, ht1, if_false, Heap.realloc, h0] at hm1
          have := hlt _ _ _ hm1 hb1
          omega
        · simp only [Heap.setMem, ht1, ht2, if_false, Heap.realloc, h0] at hm1 hm2
          exact hs.own _ _ _ _ i hm1 hm2 hb1 hb2
    · intro i x hx
      simp only [Heap.setMem, Heap.realloc, h0, if_false] at hx ⊢
      split at hx
      · omega
      · split at hx
        · cases hx
        · have := hs.fresh _ _ hx; omega
    · intro i x hx
      simp only [Heap.setMem, Heap.realloc, h0, if_false] at hx ⊢
      split at hx
      · rename_i hi
        exact ⟨t, _, if_pos rfl, by rw [hi]⟩
      · split at hx
        · cases hx
        · rename_i hio
          obtain ⟨t', m, hm, hb⟩ := hs.kept _ _ hx
          have ht : t' ≠ t := by
            intro ht; subst ht; exact hio (by rw [← hb, hold m hm])
          exact ⟨t', m, by rw [if_neg ht, hm], hb⟩

/-- Change the view of a memory, not its buffer. -/
theorem Sound.remap {h : Heap C T} (hs : Sound h) (t : T) (m : Mem) (hm : h.mems t = some m) (p : Option Nat) (r c : Nat)
    (hf : r * c ≤ m.size) (hp : r * c ≠ 0 → p = m.buf) : Sound (h.setMem t ⟨m.buf, m.size, p, r, c⟩) := by
  have key : ∀ t' m', (h.setMem t ⟨m.buf, m.size, p, r, c⟩).mems t' = some m' →
      ∃ m0, h.mems t' = some m0 ∧ m'.buf = m0.buf ∧ m'.size = m0.size := by
    intro t' m' hm'
    by_cases ht : t' = t
    · simp only [Heap.setMem, ht, if_true, Option.some.injEq] at hm'; subst hm'; exact ⟨m, by rw [ht, hm], rfl, rfl⟩
    · simp only [Heap.setMem, ht, if_false] at hm'; exact ⟨m', hm', rfl, rfl⟩
  constructor
  · intro t' m' hm'
    by_cases ht : t' = t
    · simp only [Heap.setMem, ht, if_true, Option.some.injEq] at hm'; subst hm'; exact hf
    · simp only [Heap.setMem, ht, if_false] at hm'; exact hs.fits _ _ hm'
  · intro t' m' hm' hne
    by_cases ht : t' = t
    · simp only [Heap.setMem, ht, if_true, Option.some.injEq] at hm'; subst hm'; exact hp hne
    · simp only [Heap.setMem, ht, if_false] at hm'; exact hs.view _ _ hm' hne
  · intro t' m' hm' hne
    obtain ⟨m0, h0, hb, hz⟩ := key _ _ hm'
    obtain ⟨i, x, hi, hx⟩ := hs.live _ _ h0 (by omega)
    exact ⟨i, x, by rw [hb, hi], hx⟩
  · intro t' m' i hm' hi
    obtain ⟨m0, h0, hb, hz⟩ := key _ _ hm'
    exact hs.alloc _ _ i h0 (by rw [← hb, hi])
  · intro t1 t2 m1 m2 i hm1 hm2 hb1 hb2
    obtain ⟨m0, h0, hb, hz⟩ := key _ _ hm1
    obtain ⟨m0', h0', hb', hz'⟩ := key _ _ hm2
    exact hs.own _ _ _ _ i h0 h0' (by rw [← hb, hb1]) (by rw [← hb', hb2])
  · intro i x hx; exact hs.fresh i x hx
  · intro i x hx
    obtain ⟨t', m', hm', hb⟩ := hs.kept i x hx
    by_cases ht : t' = t
    · subst ht
      rw [hm] at hm'; cases hm'
      exact ⟨t', ⟨m.buf, m.size, p, r, c⟩, by simp [Heap.setMem], hb⟩
    · exact ⟨t', m', by simp [Heap.setMem, ht, hm'], hb⟩

/-- Write in an allocated buffer. -/
theorem Sound.write {h : Heap C T} (hs : Sound h) (i : Nat) (x y : C) (hi : h.content i = some x) :
    Sound (⟨h.mems, h.next, fun j => if j = i then some y else h.content j⟩ : Heap C T) := by
  have key : ∀ j z, h.content j = some z → ∃ w, (if j = i then some y else h.content j) = some w := by
    intro j z hz; by_cases hj : j = i <;> simp [hj, hz]
  have key' : ∀ j w, (if j = i then some y else h.content j) = some w → ∃ z, h.content j = some z := by
    intro j w hw; by_cases hj : j = i
    · exact ⟨x, by rw [hj, hi]⟩
    · exact ⟨w, by rwa [if_neg hj] at hw⟩
  constructor
  · exact hs.fits
  · exact hs.view
  · intro t m hm hne
    obtain ⟨j, z, hj, hz⟩ := hs.live _ _ hm hne
    obtain ⟨w, hw⟩ := key j z hz
    exact ⟨j, w, hj, hw⟩
  · intro t m j hm hb
    obtain ⟨z, hz⟩ := hs.alloc _ _ j hm hb
    exact key j z hz
  · exact hs.own
  · intro j w hw
    obtain ⟨z, hz⟩ := key' j w hw
    exact hs.fresh j z hz
  · intro j w hw
    obtain ⟨z, hz⟩ := key' j w hw
    exact hs.kept j z hz

/-- The memories of `h'` are at least as large as those of `h`. -/
def Heap.Le (h h' : Heap C T) : Prop := ∀ t m, h.mems t = some m → ∃ m', h'.mems t = some m' ∧ m.size ≤ m'.size

omit [DecidableEq T] in
theorem Heap.Le.refl (h : Heap C T) : h.Le h := fun _ m hm => ⟨m, hm, (Nat.le_refl _)⟩

omit [DecidableEq T] in
theorem Heap.Le.trans {a b c : Heap C T} (h1 : a.Le b) (h2 : b.Le c) : a.Le c := by
  intro t m hm
  obtain ⟨m1, hm1, l1⟩ := h1 t m hm
  obtain ⟨m2, hm2, l2⟩ := h2 t m1 hm1
  exact ⟨m2, hm2, Nat.le_trans l1 l2⟩

/-- What `getMemory` does. -/
theorem getMemory_spec (junk : C) {h : Heap C T} (hs : Sound h) (t : T) (dim n : Nat) :
    Sound (h.getMemory junk t dim n).1 ∧ (h.getMemory junk t dim n).1.mems t = some (h.getMemory junk t dim n).2 ∧
    (∀ t', t' ≠ t → (h.getMemory junk t dim n).1.mems t' = h.mems t') ∧
    (∀ i x, h.content i = some x → (h.getMemory junk t dim n).1.content i = some x) ∧
    (∀ i x, h.content i = some x → h.mems t = none → (h.getMemory junk t dim n).2.buf ≠ some i) ∧
    (∀ m, h.mems t = some m → h.getMemory junk t dim n = (h, m)) ∧
    (h.mems t = none → (h.getMemory junk t dim n).2.size = (n - dim) * n) := by
  cases hm : h.mems t with
  | some m =>
    have e : h.getMemory junk t dim n = (h, m) := by simp [Heap.getMemory, hm]
    rw [e]
    refine ⟨hs, hm, fun _ _ => rfl, fun _ _ hx => hx, ?_, ?_, ?_⟩
    · intro i x _ h0; cases h0
    · intro m' h0; cases h0; rfl
    · intro h0; cases h0
  | none =>
    by_cases hd : dim < n
    · have e : h.getMemory junk t dim n =
          ((h.realloc junk none ((n - dim) * n)).1.setMem t ⟨(h.realloc junk none ((n - dim) * n)).2, (n - dim) * n, none, 0, 0⟩,
            ⟨(h.realloc junk none ((n - dim) * n)).2, (n - dim) * n, none, 0, 0⟩) := by
        simp [Heap.getMemory, hm, hd]
      have hz : (n - dim) * n ≠ 0 := Nat.mul_ne_zero (by omega) (by omega)
      rw [e]
      refine ⟨?_, by simp [Heap.setMem], ?_, ?_, ?_, ?_, fun _ => rfl⟩
      · refine hs.replace t none ?_ (fun _ => rfl) junk _ none 0 0 (by simp) (by simp)
        intro m h0; rw [hm] at h0; cases h0
      · intro t' ht; simp [Heap.setMem, ht, Heap.realloc, hz]
      · intro i x hx
        have := hs.fresh _ _ hx
        simp only [Heap.setMem, Heap.realloc, hz, if_false]
        rw [if_neg (by omega)]
        simp [hx]
      · intro i x hx _
        have := hs.fresh _ _ hx
        simp only [Heap.realloc, hz, if_false, ne_eq, Option.some.injEq]
        omega
      · intro m h0; cases h0
    · have e : h.getMemory junk t dim n = (h.setMem t ⟨none, 0, none, 0, 0⟩, ⟨none, 0, none, 0, 0⟩) := by
        simp [Heap.getMemory, hm, hd]
      rw [e]
      refine ⟨?_, by simp [Heap.setMem], ?_, fun i x hx => hx, ?_, ?_, ?_⟩
      · have := hs.replace t none (fun m h0 => by rw [hm] at h0; cases h0) (fun _ => rfl) junk 0 none 0 0 (by simp) (by simp)
        simpa [Heap.realloc, Heap.setMem] using this
      · intro t' ht; simp [Heap.setMem, ht]
      · intro i x hx _; simp
      · intro m h0; cases h0
      · intro _; have : n - dim = 0 := by omega
        simp [this]

/-- What `getKernel` does. -/
theorem getKernel_spec (junk : C) {h : Heap C T} (hs : Sound h) (t : T) (m : Mem) (hm : h.mems t = some m) (r c : Nat) :
    Sound (h.getKernel junk t m r c).1 ∧ (h.getKernel junk t m r c).1.mems t = some (h.getKernel junk t m r c).2 ∧
    (∀ t', t' ≠ t → (h.getKernel junk t m r c).1.mems t' = h.mems t') ∧
    (∀ i x, h.content i = some x → m.buf ≠ some i →
      (h.getKernel junk t m r c).1.content i = some x ∧ (h.getKernel junk t m r c).2.buf ≠ some i) ∧
    ((h.getKernel junk t m r c).2.rows = r ∧ (h.getKernel junk t m r c).2.cols = c ∧
      (h.getKernel junk t m r c).2.size = max m.size (r * c)) ∧
    (r * c ≤ m.size → (h.getKernel junk t m r c).1.next = h.next ∧ (h.getKernel junk t m r c).1.content = h.content) := by
  by_cases hd : m.rows ≠ r ∨ m.cols ≠ c
  · by_cases hz : m.size < r * c
    · have hne : r * c ≠ 0 := by omega
      have e : h.getKernel junk t m r c =
          ((h.realloc junk m.buf (r * c)).1.setMem t ⟨(h.realloc junk m.buf (r * c)).2, r * c, (h.realloc junk m.buf (r * c)).2, r, c⟩,
            ⟨(h.realloc junk m.buf (r * c)).2, r * c, (h.realloc junk m.buf (r * c)).2, r, c⟩) := by
        simp [Heap.getKernel, hd, hz]
      rw [e]
      refine ⟨?_, by simp [Heap.setMem], ?_, ?_, ⟨rfl, rfl, ?_⟩, ?_⟩
      · refine hs.replace t m.buf ?_ ?_ junk _ _ r c (Nat.le_refl _) (fun _ => rfl)
        · intro m' h0; rw [hm] at h0; cases h0; rfl
        · intro h0; rw [hm] at h0; cases h0
      · intro t' ht; simp [Heap.setMem, ht, Heap.realloc, hne]
      · intro i x hx hb
        have := hs.fresh _ _ hx
        simp only [Heap.setMem, Heap.realloc, hne, if_false]
        refine ⟨?_, ?_⟩
        · rw [if_neg (by omega), if_neg (fun h0 => hb h0.symm), hx]
        · simp only [ne_eq, Option.some.injEq]; omega
      · show r * c = max m.size (r * c); omega
      · intro h0; omega
    · have e : h.getKernel junk t m r c = (h.setMem t ⟨m.buf, m.size, m.buf, r, c⟩, ⟨m.buf, m.size, m.buf, r, c⟩) := by
        simp [Heap.getKernel, hd, hz]
      rw [e]
      refine ⟨hs.remap t m hm _ r c (by omega) (fun _ => rfl), by simp [Heap.setMem], ?_, fun i x hx hb => ⟨hx, hb⟩,
        ⟨rfl, rfl, ?_⟩, fun _ => ⟨rfl, rfl⟩⟩
      · intro t' ht; simp [Heap.setMem, ht]
      · show m.size = max m.size (r * c); omega
  · have e : h.getKernel junk t m r c = (h, m) := by simp only [Heap.getKernel, if_neg hd]
    have hr : m.rows = r ∧ m.cols = c := by
      constructor
      · exact Classical.byContradiction fun h0 => hd (Or.inl h0)
      · exact Classical.byContradiction fun h0 => hd (Or.inr h0)
    rw [e]
    have := hs.fits _ _ hm
    rw [hr.1, hr.2] at this
    refine ⟨hs, hm, fun _ _ => rfl, fun i x hx hb => ⟨hx, hb⟩, ⟨hr.1, hr.2, by show m.size = _; omega⟩, fun _ => ⟨rfl, rfl⟩⟩

/-- A view with the value `x`, on no buffer of the tasks of the levels. -/
def Good (h : Heap C T) (v : View C) (x : Option C) (ls : List (Level C T)) : Prop :=
  match v with
  | .absent => x = none
  | .given _ y => x = some y
  | .buffer _ p => ∃ i y, p = some i ∧ h.content i = some y ∧ x = some y ∧
      ∀ l ∈ ls, ∀ m, h.mems l.task = some m → m.buf ≠ some i

omit [DecidableEq T] in
theorem Good.read {h : Heap C T} {v : View C} {x : Option C} {ls : List (Level C T)} (g : Good h v x ls) : v.read h = .ok x := by
  cases v with
  | absent => simp only [Good] at g; subst g; rfl
  | given c y => simp only [Good] at g; subst g; rfl
  | buffer c p =>
    obtain ⟨i, y, hp, hy, hx, _⟩ := g
    subst hp hx
    simp [View.read, hy]

/-- The view is still good after `getMemory`. -/
theorem Good.memory (junk : C) {h : Heap C T} (hs : Sound h) {v : View C} {x : Option C} {ls : List (Level C T)} (g : Good h v x ls)
    (t : T) (dim n : Nat) : Good (h.getMemory junk t dim n).1 v x ls := by
  obtain ⟨_, h2, h3, h4, h5, h6, _⟩ := getMemory_spec junk hs t dim n
  cases v with
  | absent => exact g
  | given c y => exact g
  | buffer c p =>
    obtain ⟨i, y, hp, hy, hx, ho⟩ := g
    refine ⟨i, y, hp, h4 _ _ hy, hx, ?_⟩
    intro l hl m hm
    by_cases ht : l.task = t
    · cases h0 : h.mems t with
      | none =>
        rw [ht, h2] at hm; cases hm
        exact h5 i y hy h0
      | some m0 =>
        rw [h6 m0 h0] at hm
        exact ho l hl m hm
    · rw [h3 _ ht] at hm
      exact ho l hl m hm

/-- What the update of a level does: it succeeds, and the next view is good for the levels of other tasks. -/
theorem update_spec (junk : C) (n : Nat) {h : Heap C T} (hs : Sound h) (v : View C) (x : Option C) (l : Level C T)
    (g : Good h v x [l]) (m : Mem) (hm : h.mems l.task = some m) (c : Nat) (y : C) (ls : List (Level C T))
    (hl : ∀ l' ∈ ls, l'.task ≠ l.task) :
    ∃ h' p, update junk n h v l m c y = .ok (h', .buffer c p) ∧ Sound h' ∧
      (∃ m', h'.mems l.task = some m' ∧ m'.size = max m.size (n * c)) ∧ (∀ t', t' ≠ l.task → h'.mems t' = h.mems t') ∧
      (n * c ≠ 0 → Good h' (.buffer c p) (some y) ls) ∧ (n * c ≤ m.size → h'.next = h.next) := by
  obtain ⟨k1, k2, k3, k4, ⟨k5, k6, k7⟩, k8⟩ := getKernel_spec junk hs l.task m hm n c
  by_cases h0 : n * c = 0
  · refine ⟨_, _, by simp only [update, if_pos h0]; rfl, k1, ⟨_, k2, k7⟩, k3, fun h => absurd h0 h, fun h => (k8 h).1⟩
  · have hptr := k1.view _ _ k2 (by rw [k5, k6]; exact h0)
    obtain ⟨i, z, hi, hz⟩ := k1.live _ _ k2 (by rw [k7]; omega)
    have hread : v.read (h.getKernel junk l.task m n c).1 = .ok x ∧ v.on (h.getKernel junk l.task m n c).2.ptr = false := by
      cases v with
      | absent => simp only [Good] at g; subst g; exact ⟨rfl, rfl⟩
      | given c y => simp only [Good] at g; subst g; exact ⟨rfl, rfl⟩
      | buffer c p =>
        obtain ⟨j, w, hp, hw, hx, ho⟩ := g
        obtain ⟨a, b⟩ := k4 j w hw (ho l (by simp) m hm)
        subst hp hx
        refine ⟨by simp only [View.read, a], ?_⟩
        simp only [View.on, hptr, beq_eq_false_iff_ne]
        exact b
    refine ⟨⟨(h.getKernel junk l.task m n c).1.mems, (h.getKernel junk l.task m n c).1.next,
      fun j => if j = i then some y else (h.getKernel junk l.task m n c).1.content j⟩, some i, ?_, k1.write i z y hz, ⟨_, k2, k7⟩, k3,
      ?_, fun h => (k8 h).1⟩
    · have hon := hread.2
      rw [hptr, hi] at hon
      simp only [update, if_neg h0, hread.1, hptr, hi, Outcome.bind, hon, Bool.false_eq_true, if_false]
    · intro _
      refine ⟨i, y, rfl, if_pos rfl, rfl, ?_⟩
      intro l' hl' m' hm' hb
      exact hl l' hl' (k1.own _ _ _ _ i hm' k2 hb hi)

/-- The loop on the memory computes the projectors, keeps what holds between the computations, and allocates nothing when the memories
are as large as after a computation of the same levels. -/
theorem loop_spec (junk : C) (n : Nat) (hn : 0 < n) (ls : List (Level C T)) :
    ∀ (h : Heap C T) (v : View C) (x : Option C), Sound h → Good h v x ls → (ls.map (·.task)).Nodup →
      ∃ h', loop junk n h v ls = .ok (projectors v.cols x ls, h') ∧ Sound h' ∧ h.Le h' ∧
        ∀ (h1 : Heap C T) (v1 : View C), Sound h1 → Good h1 v1 x ls → v1.cols = v.cols → h'.Le h1 →
          ∃ h1', loop junk n h1 v1 ls = .ok (projectors v.cols x ls, h1') ∧ h1'.next = h1.next ∧ h1.Le h1' ∧ h1'.Le h1 := by
  induction ls with
  | nil => intro h v x hs g _; exact ⟨h, rfl, hs, Heap.Le.refl _, fun h1 v1 _ _ _ _ => ⟨h1, rfl, rfl, Heap.Le.refl _, Heap.Le.refl _⟩⟩
  | cons l ls ih =>
    intro h v x hs g hnd
    have hnd' : (ls.map (·.task)).Nodup := (List.nodup_cons.1 (by simpa using hnd)).2
    have hl : ∀ l' ∈ ls, l'.task ≠ l.task := by
      intro l' hl' he
      exact (List.nodup_cons.1 (by simpa using hnd : (l.task :: ls.map (·.task)).Nodup)).1 (List.mem_map.2 ⟨l', hl', he⟩)
    -- after `getMemory`
    have mem : ∀ (h : Heap C T) (v : View C), Sound h → Good h v x (l :: ls) →
        Sound (h.getMemory junk l.task l.dim n).1 ∧ Good (h.getMemory junk l.task l.dim n).1 v x (l :: ls) ∧
        (h.getMemory junk l.task l.dim n).1.mems l.task = some (h.getMemory junk l.task l.dim n).2 ∧
        h.Le (h.getMemory junk l.task l.dim n).1 := by
      intro h v hs g
      obtain ⟨a1, a2, a3, _, _, a6, _⟩ := getMemory_spec junk hs l.task l.dim n
      refine ⟨a1, g.memory junk hs _ _ _, a2, ?_⟩
      intro t m hm
      by_cases ht : t = l.task
      · subst ht; rw [a6 m hm]; exact ⟨m, hm, (Nat.le_refl _)⟩
      · exact ⟨m, by rw [a3 t ht, hm], (Nat.le_refl _)⟩
    have mem1 : ∀ (h1 : Heap C T), Sound h1 → (∃ m, h1.mems l.task = some m) → (h1.getMemory junk l.task l.dim n).1 = h1 := by
      intro h1 hs1 ⟨m, hm⟩
      rw [(getMemory_spec junk hs1 l.task l.dim n).2.2.2.2.2.1 m hm]
    have tail : ∀ {h : Heap C T} {v : View C}, Good h v x (l :: ls) → Good h v x ls := by
      intro h v g
      cases v with
      | absent => exact g
      | given c y => exact g
      | buffer c p =>
        obtain ⟨i, y, hp, hy, hx, ho⟩ := g
        exact ⟨i, y, hp, hy, hx, fun l' hl' => ho l' (List.mem_cons_of_mem _ hl')⟩
    have head : ∀ {h : Heap C T} {v : View C}, Good h v x (l :: ls) → Good h v x [l] := by
      intro h v g
      cases v with
      | absent => exact g
      | given c y => exact g
      | buffer c p =>
        obtain ⟨i, y, hp, hy, hx, ho⟩ := g
        exact ⟨i, y, hp, hy, hx, fun l' hl' => ho l' (by simp only [List.mem_singleton] at hl'; simp [hl'])⟩
    obtain ⟨m1, m2, m3, m4⟩ := mem h v hs g
    cases ls with
    | nil =>
      refine ⟨_, by simp only [loop, m2.read, Outcome.bind, List.isEmpty_nil, if_true, projectors], m1, m4, ?_⟩
      intro h1 v1 hs1 g1 hc hle
      obtain ⟨b1, b2, b3, b4⟩ := mem h1 v1 hs1 g1
      have e := mem1 h1 hs1 (by obtain ⟨m, hm, _⟩ := hle _ _ m3; exact ⟨m, hm⟩)
      refine ⟨_, by simp only [loop, b2.read, Outcome.bind, List.isEmpty_nil, if_true, projectors], by rw [e], b4, ?_⟩
      rw [e]; exact Heap.Le.refl _
    | cons l' ls' =>
      cases hcomp : l.compute x with
      | none =>
        by_cases hc0 : v.cols = 0
        · refine ⟨_, by simp only [loop, m2.read, Outcome.bind, List.isEmpty_cons, Bool.false_eq_true, if_false, hcomp, hc0, if_true,
            projectors], m1, m4, ?_⟩
          intro h1 v1 hs1 g1 hc hle
          obtain ⟨b1, b2, b3, b4⟩ := mem h1 v1 hs1 g1
          have e := mem1 h1 hs1 (by obtain ⟨m, hm, _⟩ := hle _ _ m3; exact ⟨m, hm⟩)
          refine ⟨_, by simp only [loop, b2.read, Outcome.bind, List.isEmpty_cons, Bool.false_eq_true, if_false, hcomp, hc, hc0, if_true,
            projectors], by rw [e], b4, ?_⟩
          rw [e]; exact Heap.Le.refl _
        · obtain ⟨h', e', s', le', st'⟩ := ih _ v x m1 (tail m2) hnd'
          refine ⟨h', ?_, s', m4.trans le', ?_⟩
          · rw [loop]
            simp only [m2.read, Outcome.bind, List.isEmpty_cons, Bool.false_eq_true, if_false, hcomp, hc0, projectors, e', Outcome.map]
          · intro h1 v1 hs1 g1 hc hle
            have e := mem1 h1 hs1 (by
              obtain ⟨m, hm, _⟩ := le' _ _ m3
              obtain ⟨m', hm', _⟩ := hle _ _ hm
              exact ⟨m', hm'⟩)
            obtain ⟨b1, b2, b3, b4⟩ := mem h1 v1 hs1 g1
            rw [e] at b2
            obtain ⟨h1', e1, n1, l1, l2⟩ := st' h1 v1 hs1 (tail g1) hc hle
            refine ⟨h1', ?_, n1, l1, l2⟩
            rw [loop]
            simp only [e, b2.read, Outcome.bind, List.isEmpty_cons, Bool.false_eq_true, if_false, hcomp, hc, hc0, projectors, e1,
              Outcome.map]
      | some q =>
        obtain ⟨c, y⟩ := q
        obtain ⟨h', p, eu, su, ⟨m', hm', hz'⟩, ou, gu, nu⟩ := update_spec junk n m1 v x l (head m2) _ m3 c y (l' :: ls') hl
        have leu : (h.getMemory junk l.task l.dim n).1.Le h' := by
          intro t m hm
          by_cases ht : t = l.task
          · subst ht; rw [m3] at hm; cases hm; exact ⟨m', hm', by omega⟩
          · exact ⟨m, by rw [ou t ht, hm], (Nat.le_refl _)⟩
        -- the second computation, until the end of this level
        have second : ∀ (h1 : Heap C T) (v1 : View C), Sound h1 → Good h1 v1 x (l :: l' :: ls') → h'.Le h1 →
            ∃ h1' p1, update junk n (h1.getMemory junk l.task l.dim n).1 v1 l (h1.getMemory junk l.task l.dim n).2 c y =
              .ok (h1', .buffer c p1) ∧ (h1.getMemory junk l.task l.dim n).1 = h1 ∧ Sound h1' ∧
              (n * c ≠ 0 → Good h1' (.buffer c p1) (some y) (l' :: ls')) ∧ h1'.next = h1.next ∧ h1.Le h1' ∧ h1'.Le h1 := by
          intro h1 v1 hs1 g1 hle
          obtain ⟨mm, hmm, hlemm⟩ := hle _ _ hm'
          obtain ⟨b1, b2, b3, b4⟩ := mem h1 v1 hs1 g1
          have e := mem1 h1 hs1 ⟨mm, hmm⟩
          have e2 : (h1.getMemory junk l.task l.dim n).2 = mm := by rw [e, hmm] at b3; exact (Option.some.inj b3).symm
          obtain ⟨h1', p1, eu1, su1, ⟨m1', hm1', hz1'⟩, ou1, gu1, nu1⟩ :=
            update_spec junk n b1 v1 x l (head b2) _ b3 c y (l' :: ls') hl
          rw [e2] at hz1' nu1
          have hge : n * c ≤ mm.size := by omega
          refine ⟨h1', p1, eu1, e, su1, gu1, by rw [nu1 hge, e], ?_, ?_⟩
          · intro t m hm
            by_cases ht : t = l.task
            · subst ht; rw [hmm] at hm; cases hm; exact ⟨m1', hm1', by omega⟩
            · exact ⟨m, by rw [ou1 t ht, e, hm], (Nat.le_refl _)⟩
          · intro t m hm
            by_cases ht : t = l.task
            · subst ht; rw [hm1'] at hm; cases hm; exact ⟨mm, hmm, by omega⟩
            · exact ⟨m, by rw [ou1 t ht, e] at hm; exact hm, (Nat.le_refl _)⟩
        by_cases hc0 : c = 0
        · subst hc0
          refine ⟨h', ?_, su, m4.trans leu, ?_⟩
          · rw [loop]
            simp only [m2.read, Outcome.bind, List.isEmpty_cons, Bool.false_eq_true, if_false, hcomp, eu, if_true, projectors]
          · intro h1 v1 hs1 g1 hc hle
            obtain ⟨h1', p1, eu1, e, su1, gu1, nx, l1, l2⟩ := second h1 v1 hs1 g1 hle
            refine ⟨h1', ?_, nx, l1, l2⟩
            rw [loop]
            simp only [(mem h1 v1 hs1 g1).2.1.read, Outcome.bind, List.isEmpty_cons, Bool.false_eq_true, if_false, hcomp, eu1,
              if_true, projectors]
        · have hnc : n * c ≠ 0 := Nat.mul_ne_zero (by omega) hc0
          obtain ⟨h2, e2, s2, le2, st2⟩ := ih h' (.buffer c p) (some y) su (gu hnc) hnd'
          refine ⟨h2, ?_, s2, (m4.trans leu).trans le2, ?_⟩
          · rw [loop]
            simp only [m2.read, Outcome.bind, List.isEmpty_cons, Bool.false_eq_true, if_false, hcomp, eu, hc0, projectors, e2,
              Outcome.map, View.cols]
          · intro h1 v1 hs1 g1 hc hle
            obtain ⟨h1', p1, eu1, e, su1, gu1, nx, l1, l2⟩ := second h1 v1 hs1 g1 (le2.trans hle)
            obtain ⟨h3, e3, n3, l3, l4⟩ := st2 h1' (.buffer c p1) su1 (gu1 hnc) rfl (hle.trans l1)
            refine ⟨h3, ?_, n3.trans nx, l1.trans l3, l4.trans l2⟩
            rw [loop]
            simp only [(mem h1 v1 hs1 g1).2.1.read, Outcome.bind, List.isEmpty_cons, Bool.false_eq_true, if_false, hcomp, eu1, hc0,
              projectors, e3, Outcome.map, View.cols]

/-- A computation: the number of joints, the initial projector, if any, with its columns, and the levels. -/
structure Computation (C T : Type) where
  n : Nat
  initial : Option (Nat × C)
  levels : List (Level C T)

/-- The initial view. -/
def Computation.view (k : Computation C T) : View C :=
  match k.initial with
  | none => .absent
  | some (c, x) => .given c x

/-- The projectors that a computation gives to the levels. -/
def Computation.projectors (k : Computation C T) : List (Option C) :=
  KernelMem.projectors ((k.initial.map (·.1)).getD 0) (k.initial.map (·.2)) k.levels

/-- No task is twice in the stack. -/
def Computation.Distinct (k : Computation C T) : Prop := 0 < k.n ∧ (k.levels.map (·.task)).Nodup

/-- Computations one after the other. -/
def run (junk : C) (h : Heap C T) : List (Computation C T) → Outcome (List (List (Option C)) × Heap C T)
  | [] => .ok ([], h)
  | k :: ks => (loop junk k.n h k.view k.levels).bind fun r => (run junk r.2 ks).map fun q => (r.1 :: q.1, q.2)

omit [DecidableEq T] in
theorem Computation.good (k : Computation C T) (h : Heap C T) : Good h k.view (k.initial.map (·.2)) k.levels := by
  unfold Computation.view
  cases k.initial with
  | none => rfl
  | some q => rfl

omit [DecidableEq T] in
theorem Computation.view_cols (k : Computation C T) : k.view.cols = (k.initial.map (·.1)).getD 0 := by
  unfold Computation.view
  cases k.initial with
  | none => rfl
  | some q => rfl

/-- **C109.** Whatever was computed before with these tasks, a computation gives to the levels the projectors of the description without
memory, and leaves the memory sound. -/
theorem C109_projectors (junk : C) (h : Heap C T) (hs : Sound h) (k : Computation C T) (hk : k.Distinct) :
    ∃ h', loop junk k.n h k.view k.levels = .ok (k.projectors, h') ∧ Sound h' := by
  obtain ⟨h', e, s, _, _⟩ := loop_spec junk k.n hk.1 k.levels h k.view _ hs (k.good h) hk.2
  exact ⟨h', by rw [e, k.view_cols]; rfl, s⟩

theorem run_spec (junk : C) (ks : List (Computation C T)) (hk : ∀ k ∈ ks, k.Distinct) :
    ∀ h : Heap C T, Sound h → ∃ h', run junk h ks = .ok (ks.map (·.projectors), h') ∧ Sound h' := by
  induction ks with
  | nil => intro h hs; exact ⟨h, rfl, hs⟩
  | cons k ks ih =>
    intro h hs
    obtain ⟨h1, e1, s1⟩ := C109_projectors junk h hs k (hk k (by simp))
    obtain ⟨h2, e2, s2⟩ := ih (fun k' hk' => hk k' (List.mem_cons_of_mem _ hk')) h1 s1
    exact ⟨h2, by simp only [run, e1, Outcome.bind, e2, Outcome.map, List.map_cons], s2⟩

/-- **C109.** From the start of the program, any sequence of computations, each on its own stack, gives the projectors of the description
without memory. At the end the view of each task is inside its buffer, the buffers are allocated, two tasks have different buffers and no
buffer is lost. -/
theorem C109_history (junk : C) (ks : List (Computation C T)) (hk : ∀ k ∈ ks, k.Distinct) :
    ∃ h', run junk Heap.new ks = .ok (ks.map (·.projectors), h') ∧
      (∀ t m, h'.mems t = some m → m.rows * m.cols ≤ m.size ∧ (m.rows * m.cols ≠ 0 → m.ptr = m.buf ∧ ∃ i x, m.ptr = some i ∧
        h'.content i = some x)) ∧
      (∀ t t' m m' i, h'.mems t = some m → h'.mems t' = some m' → m.buf = some i → m'.buf = some i → t = t') ∧
      (∀ i x, h'.content i = some x → ∃ t m, h'.mems t = some m ∧ m.buf = some i) := by
  obtain ⟨h', e, s⟩ := run_spec junk ks hk Heap.new Sound.new
  refine ⟨h', e, ?_, s.own, s.kept⟩
  intro t m hm
  have hf := s.fits t m hm
  refine ⟨hf, fun hne => ⟨s.view t m hm hne, ?_⟩⟩
  obtain ⟨i, x, hi, hx⟩ := s.live t m hm (by omega)
  exact ⟨i, x, by rw [s.view t m hm hne, hi], hx⟩

/-- **C109.** A computation that is repeated, any number of times, allocates no buffer after the first time. -/
theorem C109_steady (junk : C) (h : Heap C T) (hs : Sound h) (k : Computation C T) (hk : k.Distinct) (p : Nat) :
    ∃ h1 h2, loop junk k.n h k.view k.levels = .ok (k.projectors, h1) ∧
      run junk h1 (List.replicate p k) = .ok (List.replicate p k.projectors, h2) ∧ h2.next = h1.next := by
  obtain ⟨h1, e, s, _, st⟩ := loop_spec junk k.n hk.1 k.levels h k.view _ hs (k.good h) hk.2
  have key : ∀ p (hh : Heap C T), Sound hh → h1.Le hh →
      ∃ h2, run junk hh (List.replicate p k) = .ok (List.replicate p k.projectors, h2) ∧ h2.next = hh.next := by
    intro p
    induction p with
    | zero => intro hh _ _; exact ⟨hh, rfl, rfl⟩
    | succ p ih =>
      intro hh hsh hle
      obtain ⟨h2, e2, n2, l2, _⟩ := st hh k.view hsh (k.good hh) rfl hle
      obtain ⟨h2', e2', s2⟩ := C109_projectors junk hh hsh k hk
      have : h2 = h2' := by
        rw [e2] at e2'; injection e2' with e3; injection e3
      subst this
      obtain ⟨h3, e3, n3⟩ := ih h2 s2 (hle.trans l2)
      refine ⟨h3, ?_, n3.trans n2⟩
      simp only [List.replicate_succ, run, e2', Outcome.bind, e3, Outcome.map]
  obtain ⟨h2, e2, n2⟩ := key p h1 s (Heap.Le.refl _)
  exact ⟨h1, h2, by rw [e, k.view_cols]; rfl, e2, n2⟩

/-- **C109.** The first projector of a task whose rank is its dimension is computed in the buffer that is allocated with the memory. -/
theorem C109_full_rank (junk : C) (h : Heap C T) (hs : Sound h) (t : T) (ht : h.mems t = none) (dim n : Nat) :
    ((h.getMemory junk t dim n).1.getKernel junk t (h.getMemory junk t dim n).2 n (n - dim)).1.next = (h.getMemory junk t dim n).1.next ∧
    ((h.getMemory junk t dim n).1.getKernel junk t (h.getMemory junk t dim n).2 n (n - dim)).2.cols = n - dim := by
  obtain ⟨a1, a2, _, _, _, _, a7⟩ := getMemory_spec junk hs t dim n
  obtain ⟨_, _, _, _, k5, k6⟩ := getKernel_spec junk a1 t _ a2 n (n - dim)
  refine ⟨(k6 ?_).1, k5.2.1⟩
  rw [a7 ht, Nat.mul_comm]
  exact Nat.le_refl _

/-- Requests of projectors to the memory of one task. -/
def requests (junk : C) (t : T) (h : Heap C T) (m : Mem) : List (Nat × Nat) → Heap C T × Mem
  | [] => (h, m)
  | q :: qs => requests junk t (h.getKernel junk t m q.1 q.2).1 (h.getKernel junk t m q.1 q.2).2 qs

/-- **C109.** After any requests the buffer has the largest of the sizes that were requested, or its first size, and the view has the
dimensions of the last request. -/
theorem C109_requests (junk : C) (t : T) (qs : List (Nat × Nat)) : ∀ (h : Heap C T) (m : Mem), Sound h → h.mems t = some m →
    (requests junk t h m qs).2.size = qs.foldl (fun s q => max s (q.1 * q.2)) m.size ∧
    ((requests junk t h m qs).2.rows, (requests junk t h m qs).2.cols) = qs.getLast?.getD (m.rows, m.cols) ∧
    (requests junk t h m qs).2.rows * (requests junk t h m qs).2.cols ≤ (requests junk t h m qs).2.size := by
  induction qs with
  | nil => intro h m hs hm; exact ⟨rfl, rfl, hs.fits _ _ hm⟩
  | cons q qs ih =>
    intro h m hs hm
    obtain ⟨k1, k2, _, _, ⟨k5, k6, k7⟩, _⟩ := getKernel_spec junk hs t m hm q.1 q.2
    obtain ⟨i1, i2, i3⟩ := ih _ _ k1 k2
    refine ⟨?_, ?_, i3⟩
    · show (requests junk t _ _ qs).2.size = _
      rw [i1, k7]; rfl
    · show ((requests junk t _ _ qs).2.rows, (requests junk t _ _ qs).2.cols) = _
      rw [i2, k5, k6]
      cases qs with
      | nil => rfl
      | cons q' qs' => rw [List.getLast?_cons_cons]; rw [List.getLast?_cons]; rfl

/-- **C109, counterexample.** A task that is at two successive levels, with a level after them: the second projector is computed in the
buffer of the first one, from which it is computed. Here the task is enabled at both levels, with fewer columns at the second one. -/
theorem C109_twice_counterexample (junk : C) (n : Nat) (hn : 0 < n) (h : Heap C T) (hs : Sound h) (l1 l2 l3 : Level C T)
    (ls : List (Level C T)) (ht : l2.task = l1.task) (c1 c2 : Nat) (y1 y2 : C) (h1 : l1.compute none = some (c1, y1))
    (h2 : l2.compute (some y1) = some (c2, y2)) (hc : 0 < c2) (hle : c2 ≤ c1) :
    loop junk n h .absent (l1 :: l2 :: l3 :: ls) = .ub := by
  obtain ⟨a1, a2, _, _, _, _, _⟩ := getMemory_spec junk hs l1.task l1.dim n
  obtain ⟨k1, k2, _, _, ⟨k5, k6, k7⟩, _⟩ := getKernel_spec junk a1 l1.task _ a2 n c1
  have hz1 : n * c1 ≠ 0 := Nat.mul_ne_zero (by omega) (by omega)
  have hz2 : n * c2 ≠ 0 := Nat.mul_ne_zero (by omega) (by omega)
  have hptr := k1.view _ _ k2 (by rw [k5, k6]; exact hz1)
  obtain ⟨i, z, hi, hz⟩ := k1.live _ _ k2 (by rw [k7]; omega)
  have hr : (View.absent : View C).read (h.getMemory junk l1.task l1.dim n).1 = .ok none := rfl
  have hr' : (View.absent : View C).read ((h.getMemory junk l1.task l1.dim n).1.getKernel junk l1.task (h.getMemory junk l1.task l1.dim n).2
    n c1).1 = .ok none := rfl
  rw [loop]
  simp only [hr, Outcome.bind, List.isEmpty_cons, Bool.false_eq_true, if_false, h1, update, hz1, hr', hptr, hi, View.on,
    show c1 ≠ 0 by omega]
  -- the heap after the first level
  have s2 := k1.write i z y1 hz
  generalize hq : (h.getMemory junk l1.task l1.dim n).1.getKernel junk l1.task (h.getMemory junk l1.task l1.dim n).2 n c1 = q at *
  rw [loop]
  have hm2 : (⟨q.1.mems, q.1.next, fun j => if j = i then some y1 else q.1.content j⟩ : Heap C T).mems l2.task = some q.2 := by
    rw [ht]; exact k2
  rw [(getMemory_spec junk s2 l2.task l2.dim n).2.2.2.2.2.1 q.2 hm2]
  obtain ⟨b1, b2, _, _, ⟨b5, b6, b7⟩, b8⟩ := getKernel_spec junk s2 l2.task q.2 hm2 n c2
  have hsz : n * c2 ≤ q.2.size := by
    rw [k7]; exact Nat.le_trans (Nat.mul_le_mul_left n hle) (Nat.le_max_right _ _)
  have hbuf : ((⟨q.1.mems, q.1.next, fun j => if j = i then some y1 else q.1.content j⟩ : Heap C T).getKernel junk l2.task q.2 n c2).2.ptr
      = some i := by
    have hd : (q.2.rows ≠ n ∨ q.2.cols ≠ c2) ∨ ¬ (q.2.rows ≠ n ∨ q.2.cols ≠ c2) := Classical.em _
    cases hd with
    | inl hd => simp only [Heap.getKernel, hd, if_true, Nat.not_lt.2 hsz, if_false]; exact hi
    | inr hd => simp only [Heap.getKernel, hd, if_false]; rw [hptr, hi]
  simp [View.read, Outcome.bind, h2, update, hz2, (b8 hsz).2, hbuf, View.on, Outcome.map]

/-- **C109, counterexample.** When the first task is disabled and no projector is given, the tasks below are not processed, though they
have all the freedom. -/
theorem C109_disabled_counterexample (n : Nat) (l : Level C T) (ls : List (Level C T)) (hl : l.compute none = none) :
    (⟨n, none, l :: ls⟩ : Computation C T).projectors = [none] := by
  cases ls with
  | nil => rfl
  | cons l' ls' => simp [Computation.projectors, projectors, hl]

/-- Three tasks, of dimension 2, 3 and 1, for a robot with 6 joints; the second one has rank 2. The content of a projector is a
number. -/
def exampleLevels : List (Level Nat Nat) :=
  [⟨0, 2, fun _ => some (4, 10)⟩, ⟨1, 3, fun x => some (2, x.getD 0 + 5)⟩, ⟨2, 1, fun _ => none⟩]

/-- The hypotheses hold for three tasks, computed twice, with another stack between. -/
theorem C109_case :
    (∀ k ∈ [(⟨6, none, exampleLevels⟩ : Computation Nat Nat), ⟨6, some (5, 7), exampleLevels.reverse⟩, ⟨6, none, exampleLevels⟩],
      k.Distinct) ∧
    (run 0 Heap.new [⟨6, none, exampleLevels⟩, ⟨6, some (5, 7), exampleLevels.reverse⟩, ⟨6, none, exampleLevels⟩]).map (·.1) =
      .ok [[none, some 10, some 15], [some 7, some 7, some 12], [none, some 10, some 15]] := by
  constructor
  · intro k hk
    simp only [List.mem_cons, List.not_mem_nil, or_false] at hk
    rcases hk with rfl | rfl | rfl <;> exact ⟨by decide, by decide⟩
  · rfl

end Verif.KernelMem
