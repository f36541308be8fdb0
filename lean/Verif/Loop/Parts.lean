import Verif.Loop.Posture
import Verif.Task.ErrorProps

/-!
# C154: a posture given by several features of one task

The loop of C124 with a task that has several posture features, for different joints. At the first evaluation the buffer of the error
of the task grows and loses components (C14); at the following ones it has the right size.
-/

namespace Verif.Loop

open Matrix Verif.Sot Verif.Features Verif.Device Filter Topology

/-- One feature: the joints asked for, and the posture. -/
structure PartOf where
  hist : List (Nat × Bool)
  posture : List ℝ

/-- A robot of `N` joints driven by a stack with one task, which has a posture feature for each of the parts
(src/task/task.cpp:148-313, src/feature/feature-posture.cpp:73-138). -/
noncomputable def partsLoop (svd : ∀ {m c : ℕ} (A : Matrix (Fin m) (Fin c) ℝ), Svd A) (N : Nat) (th maxSq : ℝ)
    (ff : List (Option ℝ) → List (Option ℝ) → ℝ → (Fin 6 → Option ℝ)) (parts : List PartOf) (gain : ℝ)
    (sel : Flags.Flags) (dt : ℝ) : Params where
  svd := svd
  n := N
  th := th
  maxSq := maxSq
  ff := ff
  tasks := [⟨parts.map fun p => postureFeat ((Posture.new : Posture ℝ).requests N p.hist) p.posture, gain, sel⟩]
  dt := dt

/-- The joint is moved by the task: it is active in one of the features and selected in the task
(src/feature/feature-posture.cpp:100-138, src/sot/sot.cpp:507-642). -/
def MovedBy (parts : List PartOf) (sel : Flags.Flags) (j : Nat) : Prop :=
  (∃ p ∈ parts, wanted p.hist j = true) ∧ Flags.call sel (j : Int) = .ok true

/-- The joints of the features, in order. -/
def joints (N : Nat) (parts : List PartOf) : List Nat := parts.flatMap fun p => picked (wanted p.hist) N

/-- The features are for different joints of the robot, each one for some joint, and `target` gives the posture of all of them. -/
structure Split (N : Nat) (parts : List PartOf) (target : List ℝ) : Prop where
  some : parts ≠ []
  asked : ∀ p ∈ parts, ∃ r ∈ p.hist, r.1 < N
  sizes : ∀ p ∈ parts, p.posture.length = N
  apart : parts.Pairwise fun a b => ∀ j, ¬(wanted a.hist j = true ∧ wanted b.hist j = true)
  agree : ∀ p ∈ parts, ∀ j < N, wanted p.hist j = true → p.posture.getD j 0 = target.getD j 0

section
variable {N : Nat} {parts : List PartOf} {target : List ℝ}

theorem mem_joints {j : Nat} : j ∈ joints N parts ↔ j < N ∧ ∃ p ∈ parts, wanted p.hist j = true := by
  simp only [joints, List.mem_flatMap, picked, List.mem_filter, List.mem_range]
  constructor
  · rintro ⟨p, hp, h1, h2⟩; exact ⟨h1, p, hp, h2⟩
  · rintro ⟨h1, p, hp, h2⟩; exact ⟨p, hp, h1, h2⟩

theorem joints_nodup (h : parts.Pairwise fun a b => ∀ j, ¬(wanted a.hist j = true ∧ wanted b.hist j = true)) :
    (joints N parts).Nodup := by
  rw [joints, List.nodup_flatMap]
  refine ⟨fun p _ => List.Nodup.filter _ List.nodup_range, h.imp ?_⟩
  intro a b hab
  simp only [Function.onFun]
  intro j h1 h2
  exact hab j ⟨(List.mem_filter.mp h1).2, (List.mem_filter.mp h2).2⟩

/-- The posture feature of a part reads as follows. -/
theorem part_err (p : PartOf) (ha : ∃ r ∈ p.hist, r.1 < N) (hs : p.posture.length = N) {q : List ℝ} (hq : q.length = N) :
    (postureFeat ((Posture.new : Posture ℝ).requests N p.hist) p.posture).err q =
      .ok ((picked (wanted p.hist) N).map fun i => q.getD i 0 - p.posture.getD i 0) := by
  obtain ⟨p1, p2, p3, p4⟩ := C51_history (F := ℝ) N p.hist
  have hal := p4 (by rintro h; rw [h] at ha; simp at ha)
  have hpick : picked (fun i => ((Posture.new : Posture ℝ).requests N p.hist).active.getD i false)
      ((Posture.new : Posture ℝ).requests N p.hist).active.length = picked (wanted p.hist) N := by
    rw [hal]
    apply List.filter_congr
    intro i hi
    exact p1 i (List.mem_range.mp hi)
  show Posture.error _ q p.posture (List.replicate _ 0) = _
  rw [C51_error _ q p.posture _ (by omega) (by omega) (by rw [hpick, List.length_replicate, p3]), hpick]

/-- The Jacobian of a part. -/
noncomputable def partJac (N : Nat) (p : PartOf) : Task.DMat ℝ :=
  ⟨((Posture.new : Posture ℝ).requests N p.hist).jac.length, ((Posture.new : Posture ℝ).requests N p.hist).jacCols,
    fun i j => (((Posture.new : Posture ℝ).requests N p.hist).jac[i]?).bind fun r => r[j]?⟩

theorem partJac_rows (p : PartOf) : (partJac N p).rows = (picked (wanted p.hist) N).length := by
  obtain ⟨-, p2, -, -⟩ := C51_history (F := ℝ) N p.hist
  show ((Posture.new : Posture ℝ).requests N p.hist).jac.length = _
  rw [p2]; simp

theorem partJac_at (p : PartOf) (i : Nat) (hi : i < (picked (wanted p.hist) N).length) (j : Nat) (hj : j < N) :
    (partJac N p).at_ i j = some (if j = (picked (wanted p.hist) N)[i] then (1 : ℝ) else 0) := by
  obtain ⟨-, p2, -, -⟩ := C51_history (F := ℝ) N p.hist
  show ((((Posture.new : Posture ℝ).requests N p.hist).jac[i]?).bind fun r => r[j]?) = _
  rw [p2, List.getElem?_map, List.getElem?_eq_getElem hi]
  simp [unitRow, hj]

theorem stack_rows (parts : List PartOf) : Task.totalRows (parts.map (partJac N)) = (joints N parts).length := by
  induction parts with
  | nil => rfl
  | cons p ps ih =>
    rw [List.map_cons, Task.totalRows_cons, ih, partJac_rows]
    simp [joints]

theorem stack_at (parts : List PartOf) (i : Nat) (hi : i < (joints N parts).length) (j : Nat) (hj : j < N) :
    Task.stackAt (parts.map (partJac N)) i j = some (if j = (joints N parts)[i] then (1 : ℝ) else 0) := by
  induction parts generalizing i with
  | nil => simp [joints] at hi
  | cons p ps ih =>
    have hsplit : joints N (p :: ps) = picked (wanted p.hist) N ++ joints N ps := by simp [joints]
    simp only [hsplit] at hi ⊢
    rw [List.map_cons, Task.stackAt, partJac_rows]
    rw [List.length_append] at hi
    by_cases h : i < (picked (wanted p.hist) N).length
    · rw [if_pos h, partJac_at p i h j hj, List.getElem_append_left h]
    · rw [if_neg h, ih (i - (picked (wanted p.hist) N).length) (by omega), List.getElem_append_right (by omega)]

theorem errs_flatten (h : Split N parts target) (q : List ℝ) :
    (parts.map fun p => (picked (wanted p.hist) N).map fun i => q.getD i 0 - p.posture.getD i 0).flatten =
      (joints N parts).map fun i => q.getD i 0 - target.getD i 0 := by
  rw [joints, List.map_flatMap, ← List.flatMap_def]
  have : ∀ p ∈ parts, ((picked (wanted p.hist) N).map fun i => q.getD i 0 - p.posture.getD i 0) =
      (picked (wanted p.hist) N).map fun i => q.getD i 0 - target.getD i 0 := by
    intro p hp
    apply List.map_congr_left
    intro i hi
    have hi' := List.mem_filter.mp hi
    rw [h.agree p hp i (List.mem_range.mp hi'.1) hi'.2]
  rw [List.flatMap_def, List.flatMap_def]
  congr 1
  exact List.map_congr_left this

theorem parts_level (hN : 0 < N) (h : Split N parts target) (q : List ℝ) (hq : q.length = N) (g : ℝ) (sel : Flags.Flags) (b : Buf)
    (hb : Good N (joints N parts).length b) :
    ∃ (lv : Level N) (b' : Buf) (f : Fin lv.m → Fin N) (ε : Nat → ℝ),
      evalTask N q ⟨parts.map fun p => postureFeat ((Posture.new : Posture ℝ).requests N p.hist) p.posture, g, sel⟩ b = .ok (lv, b') ∧
      Good N (joints N parts).length b' ∧ b'.err.length = (joints N parts).length ∧
      (∀ s, lv.mem = some s → lv.m ≤ s.1 ∧ N ≤ s.2) ∧
      Function.Injective f ∧ (∀ j : Fin N, (∃ i, f i = j) ↔ ∃ p ∈ parts, wanted p.hist j.val = true) ∧
      Requests lv (fun i => -(ε (f i).val) * g) ∧
      (∀ j, ε j = q.getD j 0 - target.getD j 0 ∨ ε j = 0) ∧
      ((joints N parts).length ≤ b.err.length → ∀ j, ε j = q.getD j 0 - target.getD j 0) ∧
      (∀ e, Task.computeError b.err (parts.map fun p => (picked (wanted p.hist) N).map fun i => q.getD i 0 - p.posture.getD i 0) = .ok e →
        ∀ (i : Nat) (hi : i < (joints N parts).length), ε (joints N parts)[i] = e.getD i 0) ∧
      effJac lv = selMat f (fun j => Flags.call sel ((j.val : ℕ) : Int) = .ok true) := by
  classical
  set idx := joints N parts with hidx
  have hmem : ∀ k ∈ idx, k < N := fun k hk => (mem_joints.mp hk).1
  have hnd : idx.Nodup := joints_nodup h.apart
  set full : List ℝ := idx.map fun i => q.getD i 0 - target.getD i 0 with hfull
  set es := parts.map fun p => (picked (wanted p.hist) N).map fun i => q.getD i 0 - p.posture.getD i 0 with hes
  have hflat : es.flatten = full := errs_flatten h q
  have hesne : es ≠ [] := by rw [hes]; simpa using h.some
  have herrs : collect (fun f : Feat => f.err q) (parts.map fun p => postureFeat ((Posture.new : Posture ℝ).requests N p.hist) p.posture) =
      .ok es := by
    rw [hes]
    clear hesne hflat hes
    have : ∀ l : List PartOf, (∀ p ∈ l, p ∈ parts) →
        collect (fun f : Feat => f.err q) (l.map fun p => postureFeat ((Posture.new : Posture ℝ).requests N p.hist) p.posture) =
          .ok (l.map fun p => (picked (wanted p.hist) N).map fun i => q.getD i 0 - p.posture.getD i 0) := by
      intro l hl
      induction l with
      | nil => rfl
      | cons p l ih =>
        show (Feat.err _ q).bind _ = _
        have hp := hl p (by simp)
        rw [part_err p (h.asked p hp) (h.sizes p hp) hq, Outcome.bind_ok, ih (fun x hx => hl x (by simp [hx]))]; rfl
    exact this parts (fun _ hp => hp)
  have hjacs : collect (fun f : Feat => f.jac q) (parts.map fun p => postureFeat ((Posture.new : Posture ℝ).requests N p.hist) p.posture) =
      .ok (parts.map (partJac N)) := by
    have : ∀ l : List PartOf,
        collect (fun f : Feat => f.jac q) (l.map fun p => postureFeat ((Posture.new : Posture ℝ).requests N p.hist) p.posture) =
          .ok (l.map (partJac N)) := by
      intro l
      induction l with
      | nil => rfl
      | cons p l ih =>
        show (collect _ _).map _ = _
        rw [ih]; rfl
    exact this parts
  obtain ⟨e, he, hel, heq⟩ := Task.C14_size_and_components_partial b.err es hesne
  rw [hflat] at hel heq
  have hfl : full.length = idx.length := by rw [hfull, List.length_map]
  have hroom : idx.length ≤ b.err.length → e = full := by
    intro hr
    have := Task.C14_concatenation_partial b.err es hesne (by rw [hflat, hfl]; exact hr)
    rw [this, hflat] at he
    simpa using he.symm
  have hcols : ∀ J ∈ parts.map (partJac N), J.cols = N := by
    intro J hJ
    obtain ⟨p, hp, rfl⟩ := List.mem_map.mp hJ
    exact requests_jacCols N p.hist (h.asked p hp)
  have hjne : parts.map (partJac N) ≠ [] := by simpa using h.some
  obtain ⟨J', hJ', s1, s2, s3⟩ : ∃ J', Task.computeJacobian b.jac (parts.map (partJac N)) = .ok J' ∧
      Task.IsStack J' (parts.map (partJac N)) N := by
    rcases hb.1 with hx | hx
    · exact Task.C15_stack_partial b.jac _ N hN hx hjne hcols
    · exact Task.C15_stack_fresh_partial b.jac _ N hN hx hjne hcols
  rw [stack_rows, ← hidx] at s1 s3
  have s4 : ∀ (i : Nat) (hi : i < idx.length) (j : Nat), j < N → J'.at_ i j = some (if j = idx[i] then (1 : ℝ) else 0) := by
    intro i hi j hj
    rw [s3 i j hi hj]
    exact stack_at parts i hi j hj
  set t : List (MultiBound.MultiBound ℝ) := e.map fun x => MultiBound.ofSingle 0 (-x * g) with ht
  have htl : t.length = idx.length := by simp [ht, hel, hfl]
  have hcond : J'.rows = t.length ∧ J'.cols = N ∧ ∀ i < t.length, ∀ j < N, J'.at_ i j ≠ none := by
    refine ⟨by rw [s1, htl], s2, fun i hi j hj => ?_⟩
    rw [s4 i (by omega) j hj]; simp
  let lv : Level N := ⟨t.length, Matrix.of fun i j => (J'.at_ i.val j.val).getD 0, some sel, fun i => t[i], false, b.mem⟩
  have hlt : ∀ i : Fin lv.m, i.val < idx.length := fun i => by have : i.val < t.length := i.isLt; omega
  let f : Fin lv.m → Fin N := fun i => ⟨idx[i.val]'(hlt i), hmem _ (List.getElem_mem _)⟩
  have hf : Function.Injective f := by
    intro i k hik
    simp only [f, Fin.mk.injEq] at hik
    exact Fin.ext ((List.Nodup.getElem_inj_iff hnd).mp hik)
  -- the component of the error of each joint
  let ε : Nat → ℝ := fun j => if hj : j ∈ idx then e.getD (idx.idxOf j) 0 else 0
  have hε : ∀ (i : Nat) (hi : i < idx.length), ε idx[i] = e.getD i 0 := by
    intro i hi
    simp only [ε, List.getElem_mem, dif_pos]
    rw [List.Nodup.idxOf_getElem hnd]
  have hcomp : ∀ (i : Nat) (hi : i < idx.length), e.getD i 0 = q.getD idx[i] 0 - target.getD idx[i] 0 ∨ e.getD i 0 = 0 := by
    intro i hi
    have hie : i < e.length := by omega
    rw [List.getD, List.getElem?_eq_getElem hie]
    rcases heq i hie with hx | hx
    · left
      rw [hfull, List.getElem?_map, List.getElem?_eq_getElem hi] at hx
      simpa using hx
    · right; exact hx
  let ε' : Nat → ℝ := fun j => if j ∈ idx then ε j else q.getD j 0 - target.getD j 0
  have hε' : ∀ (i : Nat) (hi : i < idx.length), ε' idx[i] = e.getD i 0 := by
    intro i hi
    simp only [ε', List.getElem_mem, if_true]
    exact hε i hi
  refine ⟨lv, ⟨e, J', some (b.mem.getD (t.length, N))⟩, f, ε', ?_, ⟨.inl s2, ?_⟩, ?_, ?_, hf, ?_, ?_, ?_, ?_, ?_, ?_⟩
  · simp only [evalTask, herrs, hjacs, Outcome.bind_ok, he, Task.computeTask, Bool.false_eq_true, if_false, hJ', ← ht, level,
      if_pos hcond]
    rfl
  · rintro s hs
    simp only [Option.some.injEq] at hs
    subst hs
    cases hm : b.mem with
    | none => simp [htl]
    | some s => exact hb.2 s hm
  · show e.length = _
    rw [hel, hfl]
  · intro s hs
    obtain ⟨h1, h2⟩ := hb.2 s hs
    exact ⟨by show t.length ≤ _; omega, h2⟩
  · intro j
    constructor
    · rintro ⟨i, rfl⟩
      exact (mem_joints.mp (List.getElem_mem (hlt i))).2
    · intro hw
      have : j.val ∈ idx := mem_joints.mpr ⟨j.isLt, hw⟩
      obtain ⟨i, hi, hij⟩ := List.getElem_of_mem this
      exact ⟨⟨i, by show i < t.length; omega⟩, Fin.ext hij⟩
  · intro i
    have hie : i.val < e.length := by have := hlt i; omega
    have hv : t[i.val]'(by have := hlt i; omega) = MultiBound.ofSingle 0 (-(e.getD i.val 0) * g) := by
      simp [ht, List.getD, List.getElem?_eq_getElem hie]
    show (t[i.val]'_).mode = _ ∧ (t[i.val]'_).boundSingle = _
    rw [hv]
    refine ⟨rfl, ?_⟩
    show -(e.getD i.val 0) * g = -(ε' (idx[i.val]'(hlt i))) * g
    rw [hε' i.val (hlt i)]
  · intro j
    by_cases hj : j ∈ idx
    · obtain ⟨i, hi, rfl⟩ := List.getElem_of_mem hj
      rw [hε' i hi]
      exact hcomp i hi
    · left; simp only [ε', hj, if_false]
  · intro hr j
    by_cases hj : j ∈ idx
    · obtain ⟨i, hi, rfl⟩ := List.getElem_of_mem hj
      rw [hε' i hi, hroom hr, hfull, List.getD, List.getElem?_map, List.getElem?_eq_getElem hi]; rfl
    · simp only [ε', hj, if_false]
  · intro e2 he2 i hi
    rw [he] at he2
    obtain rfl : e = e2 := by simpa using he2
    exact hε' i hi
  · ext i j
    have h9 := s4 i.val (hlt i) j.val j.isLt
    have h10 : lv.jac i j = if j.val = idx[i.val]'(hlt i) then (1 : ℝ) else 0 := by
      show (J'.at_ i.val j.val).getD 0 = _
      rw [h9]; rfl
    simp only [effJac, show lv.selec = some sel from rfl, selMat, Matrix.of_apply, h10, Fin.ext_iff]
    by_cases ha : j.val = idx[i.val]'(hlt i) <;> by_cases hb : Flags.call sel ((j.val : ℕ) : Int) = .ok true <;> simp [f, ha, hb]

end

/-! ### One step -/

section
variable (svd : ∀ {m c : ℕ} (A : Matrix (Fin m) (Fin c) ℝ), Svd A) (N : Nat) (th maxSq : ℝ)
    (ff : List (Option ℝ) → List (Option ℝ) → ℝ → (Fin 6 → Option ℝ)) (parts : List PartOf) (target : List ℝ) (gain : ℝ)
    (sel : Flags.Flags) (dt : ℝ)

/-- What holds at each step: the numbers of the device are `q`, its settings are those of `d0`. -/
structure PInv (d0 : Dev ℝ) (s : St) (q : List ℝ) : Prop where
  settings : SameSettings d0 s.dev
  usable : Usable s.dev
  state : s.dev.state = nums q
  shown : s.dev.stateSOUT = nums q
  size : q.length = N
  buf : ∃ b, s.bufs = [b] ∧ Good N (joints N parts).length b

/-- The task has been evaluated once. -/
def Warm (s : St) : Prop := ∀ b ∈ s.bufs, (joints N parts).length ≤ b.err.length

open scoped Classical in
/-- The square of the norm of the velocities `w` of the joints that are moved. -/
noncomputable def partsSq (w : Nat → ℝ) : ℝ := ∑ j : Fin N, if MovedBy parts sel j.val then (w j.val) ^ 2 else 0

open scoped Classical in
/-- One step of the loop. -/
theorem step_parts (hN : 6 ≤ N) (h0 : 0 ≤ th) (h1 : th < 1) (h : Split N parts target)
    (hff : BaseNumbers ff dt) {d0 : Dev ℝ} (hm : d0.mode = .oneInteg) {s : St} {q : List ℝ} (hi : PInv N parts d0 s q) :
    ∃ s' q', ∃ ε : Nat → ℝ, step (partsLoop svd N th maxSq ff parts gain sel dt) s = .ok s' ∧ PInv N parts d0 s' q' ∧ Warm N parts s' ∧
      (∀ j, ε j = q.getD j 0 - target.getD j 0 ∨ ε j = 0) ∧
      (Warm N parts s → ∀ j, ε j = q.getD j 0 - target.getD j 0) ∧
      (∀ b ∈ s.bufs, ∀ e,
        Task.computeError b.err (parts.map fun p => (picked (wanted p.hist) N).map fun i => q.getD i 0 - p.posture.getD i 0) = .ok e →
        ∀ (i : Nat) (hi : i < (joints N parts).length), ε (joints N parts)[i] = e.getD i 0) ∧
      (partsSq N parts sel (fun j => -(ε j) * gain) ≤ maxSq → s'.reports = s.reports ++ [[]] ∧
        ∀ i, 6 ≤ i → i < N → Kept d0 i (if MovedBy parts sel i then q.getD i 0 + dt * (-(ε i) * gain)
          else q.getD i 0) (q'.getD i 0)) ∧
      (maxSq < partsSq N parts sel (fun j => -(ε j) * gain) → s'.reports = s.reports ++ [[0]] ∧
        ∀ i, 6 ≤ i → i < N → Kept d0 i (q.getD i 0) (q'.getD i 0)) := by
  obtain ⟨b, hb, hgood⟩ := hi.buf
  obtain ⟨lv, b', f, ε, g1, g2, g8, g3, g4, g5, g6, g9, g10, g11, g7⟩ := parts_level (by omega) h q hi.size gain sel b hgood
  have hu : (effJac lv)ᵀ *ᵥ (fun i => -(ε (f i).val) * gain) = fun j => if MovedBy parts sel j.val then -(ε j.val) * gain else 0 := by
    funext j
    rw [g7, selMat_transpose_mulVec f _ g4 _ (fun j => -(ε j.val) * gain) (fun i => rfl) j]
    have hiff : ((∃ i, f i = j) ∧ Flags.call sel ((j.val : ℕ) : Int) = .ok true) ↔ MovedBy parts sel j.val := by rw [g5 j]; rfl
    exact if_congr hiff rfl rfl
  have hsq : (fun j : Fin N => if MovedBy parts sel j.val then -(ε j.val) * gain else 0) ⬝ᵥ
      (fun j : Fin N => if MovedBy parts sel j.val then -(ε j.val) * gain else 0) = partsSq N parts sel (fun j => -(ε j) * gain) := by
    unfold dotProduct partsSq
    apply Finset.sum_congr rfl
    intro j _
    by_cases hmv : MovedBy parts sel j.val
    · simp only [hmv, if_true]; ring
    · simp only [hmv, if_false]; ring
  obtain ⟨k1, k2⟩ := single_level svd (th := th) (maxSq := maxSq) h0 h1 lv _ g6 (fun s hs => (g3 s hs).1)
    (by rw [g7]; exact selMat_isometry f _ g4)
  rw [hu, hsq] at k1 k2
  have hev : evalTasks N q (partsLoop svd N th maxSq ff parts gain sel dt).tasks s.bufs = .ok [(lv, b')] := by
    rw [hb]
    show (evalTask N q _ b).bind _ = _
    rw [g1]; rfl
  have hcon : ∀ r, computeControlLaw svd N th maxSq false none none [lv] = .ok r →
      control (partsLoop svd N th maxSq ff parts gain sel dt) s = .ok (r.1, r.2, [b']) := by
    intro r hr
    unfold control
    rw [hi.shown, numbers_nums, Outcome.bind_ok]
    show (evalTasks N q _ s.bufs).bind _ = _
    rw [hev]
    show (computeControlLaw svd N th maxSq false none none [lv]).map _ = _
    rw [hr]; rfl
  have hwarm : Warm N parts s → ∀ j, ε j = q.getD j 0 - target.getD j 0 := fun hw => g10 (hw b (by rw [hb]; simp))
  have hexact : ∀ x ∈ s.bufs, ∀ e,
      Task.computeError x.err (parts.map fun p => (picked (wanted p.hist) N).map fun i => q.getD i 0 - p.posture.getD i 0) = .ok e →
      ∀ (i : Nat) (hi : i < (joints N parts).length), ε (joints N parts)[i] = e.getD i 0 := by
    intro x hx
    rw [hb] at hx
    obtain rfl : x = b := by simpa using hx
    exact g11
  have key : ∀ (u : Fin N → ℝ) (dis : List Nat), computeControlLaw svd N th maxSq false none none [lv] = .ok (u, dis) →
      ∃ s' q', step (partsLoop svd N th maxSq ff parts gain sel dt) s = .ok s' ∧ PInv N parts d0 s' q' ∧ Warm N parts s' ∧
        s'.reports = s.reports ++ [dis] ∧
        ∀ (i : Nat) (h : i < N), 6 ≤ i → Kept d0 i (q.getD i 0 + dt * u ⟨i, h⟩) (q'.getD i 0) := by
    intro u dis hc
    have hlen : (List.ofFn u).length = q.length := by simp [hi.size]
    obtain ⟨d', q', e1, e2, e3, e4, e5, e6, -, e8⟩ := device_step ff s.dev q (List.ofFn u) dt
      (by rw [hi.settings.2.1, hm]) hi.state (by omega) (fun _ => by have := hi.size; omega)
      (fun he i => by rw [hi.state]; exact hff q _ (by have := hi.size; omega) he i) hi.usable
    refine ⟨⟨d', [b'], s.reports ++ [dis]⟩, q', ?_, ⟨hi.settings.trans e5, e6, e2, e3, by rw [e4, hi.size], b', rfl, g2⟩, ?_, rfl, ?_⟩
    · unfold step
      rw [hcon _ hc, Outcome.bind_ok]
      show (increment ff s.dev (List.ofFn fun i => some (u i)) dt).map _ = _
      rw [ofFn_nums, e1]; rfl
    · intro x hx
      obtain rfl : x = b' := by simpa using hx
      exact g8.ge
    · intro i h hi6
      have hiq : i < q.length := by rw [hi.size]; exact h
      obtain ⟨y, y1, y2⟩ := e8 i q[i] (u ⟨i, h⟩) (fun _ => hi6) (by
        rw [hlen, Nat.sub_self, Nat.zero_add, List.getElem?_eq_getElem hiq]) (by
        rw [List.getElem?_ofFn, dif_pos h])
      rw [hlen, Nat.sub_self, Nat.zero_add] at y1 y2
      have hq : q.getD i 0 = q[i] := by rw [List.getD, List.getElem?_eq_getElem hiq]; rfl
      have hy : q'.getD i 0 = y := by rw [List.getD, y1]; rfl
      rw [hq, hy]
      exact y2.settings hi.settings
  by_cases hs : partsSq N parts sel (fun j => -(ε j) * gain) ≤ maxSq
  · obtain ⟨s', q', a1, a2, a5, a3, a4⟩ := key _ _ (k1 hs)
    refine ⟨s', q', ε, a1, a2, a5, g9, hwarm, hexact, fun _ => ⟨a3, fun i hi6 hiN => ?_⟩, fun h => absurd hs (not_le.mpr h)⟩
    have := a4 i hiN hi6
    by_cases hmv : MovedBy parts sel i
    · simpa [hmv] using this
    · simpa [hmv] using this
  · obtain ⟨s', q', a1, a2, a5, a3, a4⟩ := key _ _ (k2 (not_le.mp hs))
    refine ⟨s', q', ε, a1, a2, a5, g9, hwarm, hexact, fun h => absurd h hs, fun _ => ⟨a3, fun i hi6 hiN => ?_⟩⟩
    have : Kept d0 i (q.getD i 0 + dt * 0) (q'.getD i 0) := a4 i hiN hi6
    rwa [mul_zero, add_zero] at this

end

end Verif.Loop
