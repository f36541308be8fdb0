import Verif.Loop.Posture
import Verif.Sot.Feasible
import Mathlib.Analysis.Calculus.Deriv.Basic

/-!
# C126: a stack of tasks in closed loop
-/

namespace Verif.Loop

open Matrix Verif.Sot Verif.Device Filter Topology

/-- A feature given by a function of the joints and a matrix that depends on them. -/
structure Map (N : Nat) where
  m : Nat
  f : (Fin N → ℝ) → Fin m → ℝ
  J : (Fin N → ℝ) → Matrix (Fin m) (Fin N) ℝ

/-- A task with one such feature. -/
structure MTask (N : Nat) where
  map : Map N
  gain : ℝ
  selec : Flags.Flags

/-- The joints of a robot, as a vector. -/
def vec (N : Nat) (q : List ℝ) : Fin N → ℝ := fun i => q.getD i.val 0

/-- What the task of the library reads from such a feature. -/
noncomputable def Map.feat {N : Nat} (F : Map N) : Feat where
  err q := .ok (List.ofFn (F.f (vec N q)))
  jac q := .ok ⟨F.m, N, fun i j => if h : i < F.m ∧ j < N then some (F.J (vec N q) ⟨i, h.1⟩ ⟨j, h.2⟩) else none⟩

/-- A robot of `N` joints driven by a stack of tasks. -/
noncomputable def stackLoop (svd : ∀ {m c : ℕ} (A : Matrix (Fin m) (Fin c) ℝ), Svd A) (N : Nat) (th maxSq : ℝ)
    (ff : List (Option ℝ) → List (Option ℝ) → ℝ → (Fin 6 → Option ℝ)) (tasks : List (MTask N)) (dt : ℝ) : Params where
  svd := svd
  n := N
  th := th
  maxSq := maxSq
  ff := ff
  tasks := tasks.map fun t => ⟨[t.map.feat], t.gain, t.selec⟩
  dt := dt

open scoped Classical in
/-- The matrix of a task at `x`, with zeros for the joints that are not selected. -/
noncomputable def MTask.jac {N : Nat} (t : MTask N) (x : Fin N → ℝ) : Matrix (Fin t.map.m) (Fin N) ℝ :=
  Matrix.of fun i j => if Flags.call t.selec ((j.val : ℕ) : Int) = .ok true then t.map.J x i j else 0

/-- The velocity `w` of the joints meets the task at `x`. -/
def MTask.Met {N : Nat} (t : MTask N) (x w : Fin N → ℝ) : Prop := ∀ i, (t.jac x *ᵥ w) i = -t.gain * t.map.f x i

/-- Either the threshold is zero, or each task can be moved in any direction without moving the tasks above it, by velocities that are not too long
for the threshold. -/
def Margin {N : Nat} (th : ℝ) (tasks : List (MTask N)) (x : Fin N → ℝ) : Prop :=
  th = 0 ∨ ∃ a, th < a ∧ ∀ pre t post, tasks = pre ++ t :: post → ∀ y : Fin t.map.m → ℝ, ∃ d : Fin N → ℝ,
    (∀ p ∈ pre, p.jac x *ᵥ d = 0) ∧ t.jac x *ᵥ d = y ∧ a ^ 2 * (d ⬝ᵥ d) ≤ y ⬝ᵥ y

/-- The level that the stack reads from a task at `x`. -/
structure IsLevel {N : Nat} (t : MTask N) (x : Fin N → ℝ) (lv : Level N) : Prop where
  size : lv.m = t.map.m
  mem : ∀ s, lv.mem = some s → lv.m ≤ s.1 ∧ N ≤ s.2
  requests : Requests lv fun i => -t.gain * t.map.f x (Fin.cast size i)
  jac : effJac lv = (t.jac x).submatrix (Fin.cast size) id

theorem evalTask_map {N : Nat} (hN : 0 < N) (t : MTask N) (q : List ℝ) (b : Buf) (hb : Good N t.map.m b) :
    ∃ lv b', evalTask N q ⟨[t.map.feat], t.gain, t.selec⟩ b = .ok (lv, b') ∧ Good N t.map.m b' ∧ IsLevel t (vec N q) lv := by
  classical
  have hl : (List.ofFn (t.map.f (vec N q))).length = t.map.m := by simp
  obtain ⟨lv, b', h1, h2, h3, h4, -, h6, h7, h8⟩ := evalTask_single N hN q t.map.feat t.gain t.selec b (List.ofFn (t.map.f (vec N q)))
    ⟨t.map.m, N, fun i j => if h : i < t.map.m ∧ j < N then some (t.map.J (vec N q) ⟨i, h.1⟩ ⟨j, h.2⟩) else none⟩ rfl rfl hl.symm rfl
    (fun i hi j hj => by simp only [dif_pos (show i < t.map.m ∧ j < N from ⟨by omega, hj⟩)]; simp) (by rw [hl]; exact hb)
  rw [hl] at h2 h3
  refine ⟨lv, b', h1, h2, h3, h6, fun i => ?_, ?_⟩
  · obtain ⟨a1, a2⟩ := h7 i
    refine ⟨a1, ?_⟩
    have hi : i.val < t.map.m := by have := i.isLt; omega
    have hg : (List.ofFn (t.map.f (vec N q))).getD i.val 0 = t.map.f (vec N q) ⟨i.val, hi⟩ := by
      rw [List.getD, List.getElem?_ofFn, dif_pos hi]; rfl
    rw [a2]
    show -((List.ofFn (t.map.f (vec N q))).getD i.val 0) * t.gain = _
    rw [hg]
    show -(t.map.f (vec N q) ⟨i.val, hi⟩) * t.gain = -t.gain * t.map.f (vec N q) ⟨i.val, hi⟩
    ring
  · ext i j
    have hi : i.val < t.map.m := by have := i.isLt; omega
    have hj := h8 i j
    simp only [dif_pos (show i.val < t.map.m ∧ j.val < N from ⟨hi, j.isLt⟩), Option.some.injEq] at hj
    simp only [effJac, h4, Matrix.of_apply, MTask.jac, Matrix.submatrix_apply, id]
    rw [← hj]
    rfl

theorem evalTasks_map {N : Nat} (hN : 0 < N) (q : List ℝ) (tasks : List (MTask N)) (bufs : List Buf)
    (h : List.Forall₂ (fun t b => Good N t.map.m b) tasks bufs) :
    ∃ lbs, evalTasks N q (tasks.map fun t => ⟨[t.map.feat], t.gain, t.selec⟩) bufs = .ok lbs ∧
      List.Forall₂ (fun t b => Good N t.map.m b) tasks (lbs.map Prod.snd) ∧
      List.Forall₂ (fun t lv => IsLevel t (vec N q) lv) tasks (lbs.map Prod.fst) := by
  induction h with
  | nil => exact ⟨[], rfl, .nil, .nil⟩
  | @cons t b ts bs hb _ ih =>
    obtain ⟨lv, b', h1, h2, h3⟩ := evalTask_map hN t q b hb
    obtain ⟨lbs, g1, g2, g3⟩ := ih
    refine ⟨(lv, b') :: lbs, ?_, .cons h2 g2, .cons h3 g3⟩
    show (evalTask N q _ b).bind _ = _
    rw [h1]
    show (evalTasks N q _ bs).map _ = _
    rw [g1]; rfl

theorem IsLevel.mulVec {N : Nat} {t : MTask N} {x : Fin N → ℝ} {lv : Level N} (h : IsLevel t x lv) (d : Fin N → ℝ) :
    effJac lv *ᵥ d = fun i => (t.jac x *ᵥ d) (Fin.cast h.size i) := by
  rw [h.jac]; rfl

theorem dot_cast {a b : Nat} (h : a = b) (y : Fin b → ℝ) : (fun i : Fin a => y (Fin.cast h i)) ⬝ᵥ (fun i : Fin a => y (Fin.cast h i)) = y ⬝ᵥ y := by
  subst h; rfl

theorem forall₂_split {A B : Type} {R : A → B → Prop} {l : List A} {pre post : List B} {x : B} (h : List.Forall₂ R l (pre ++ x :: post)) :
    ∃ tpre t tpost, l = tpre ++ t :: tpost ∧ List.Forall₂ R tpre pre ∧ R t x := by
  induction pre generalizing l with
  | nil =>
    cases h with
    | @cons t _ ts _ h1 _ => exact ⟨[], t, ts, rfl, .nil, h1⟩
  | cons p pre ih =>
    cases h with
    | @cons t _ ts _ h1 h2 =>
      obtain ⟨a, b, c, rfl, e1, e2⟩ := ih h2
      exact ⟨t :: a, b, c, rfl, .cons h1 e1, e2⟩

theorem margin_regular (svd : ∀ {m c : ℕ} (A : Matrix (Fin m) (Fin c) ℝ), Svd A) {N : Nat} {th maxSq : ℝ} (hth : 0 ≤ th) {tasks : List (MTask N)}
    {x : Fin N → ℝ} (hm : Margin th tasks x) {lvs : List (Level N)} (h : List.Forall₂ (fun t lv => IsLevel t x lv) tasks lvs) :
    Regular svd N th maxSq false none none lvs := by
  rcases hm with rfl | ⟨a, ha, hm⟩
  · exact regularFrom_zero svd _ _
  · refine C125_margin_regular svd hth ha fun pre lv post hs y => ?_
    subst hs
    obtain ⟨tpre, t, tpost, rfl, h1, hl⟩ := forall₂_split h
    obtain ⟨d, d1, d2, d3⟩ := hm tpre t tpost rfl (fun i => y (Fin.cast hl.size.symm i))
    refine ⟨d, fun p hp => ?_, ?_, ?_⟩
    · obtain ⟨k, hk, rfl⟩ := List.getElem_of_mem hp
      have hlen := h1.length_eq
      have := (List.forall₂_iff_get.mp h1).2 k (by omega) hk
      simp only [List.get_eq_getElem] at this
      rw [this.mulVec, d1 _ (List.getElem_mem _)]
      rfl
    · rw [hl.mulVec, d2]; rfl
    · rw [dot_cast hl.size.symm] at d3
      exact d3

/-- The control of the loop when some velocity within the limit meets all the tasks. -/
theorem control_stack (svd : ∀ {m c : ℕ} (A : Matrix (Fin m) (Fin c) ℝ), Svd A) {N : Nat} (hN : 0 < N) {th maxSq : ℝ} (hth : 0 ≤ th)
    (ff : List (Option ℝ) → List (Option ℝ) → ℝ → (Fin 6 → Option ℝ)) {tasks : List (MTask N)} (hne : tasks ≠ []) (dt : ℝ) {s : St}
    {q : List ℝ} (hq : s.dev.stateSOUT = nums q) (hb : List.Forall₂ (fun t b => Good N t.map.m b) tasks s.bufs)
    (hm : Margin th tasks (vec N q)) (w : Fin N → ℝ) (hw : w ⬝ᵥ w ≤ maxSq) (hmet : ∀ t ∈ tasks, t.Met (vec N q) w) :
    ∃ (u : Fin N → ℝ) (bufs : List Buf), control (stackLoop svd N th maxSq ff tasks dt) s = .ok (u, [], bufs) ∧
      List.Forall₂ (fun t b => Good N t.map.m b) tasks bufs ∧ (∀ t ∈ tasks, t.Met (vec N q) u) ∧
      ∀ v, (∀ t ∈ tasks, t.Met (vec N q) v) → v ≠ u → u ⬝ᵥ u < v ⬝ᵥ v := by
  obtain ⟨lbs, g1, g2, g3⟩ := evalTasks_map hN q tasks s.bufs hb
  have hlv : ∀ lv ∈ lbs.map Prod.fst, ∃ t ∈ tasks, IsLevel t (vec N q) lv := by
    intro lv hl
    obtain ⟨k, hk, rfl⟩ := List.getElem_of_mem hl
    have hlen := g3.length_eq
    have := (List.forall₂_iff_get.mp g3).2 k (by omega) hk
    exact ⟨_, List.getElem_mem _, this⟩
  have htv : ∀ t ∈ tasks, ∃ lv ∈ lbs.map Prod.fst, IsLevel t (vec N q) lv := by
    intro t ht
    obtain ⟨k, hk, rfl⟩ := List.getElem_of_mem ht
    have hlen := g3.length_eq
    have := (List.forall₂_iff_get.mp g3).2 k hk (by omega)
    exact ⟨_, List.getElem_mem _, this⟩
  obtain ⟨u, h1, -, h3, h4⟩ := C125_compatible svd (proj0 := none) (stack := lbs.map Prod.fst) hth
    (by intro h; rw [h] at g3; cases g3; exact hne rfl) (by simp [Sot.Orthonormal]) (by simp)
    (fun lv hl => by obtain ⟨t, -, h⟩ := hlv lv hl; exact h.mem) (margin_regular svd hth hm g3) w (by simp [Allowed]) hw
    (fun lv hl => by
      obtain ⟨t, ht, h⟩ := hlv lv hl
      rw [h.mulVec]
      intro i
      refine ⟨(h.requests i).1, ?_⟩
      rw [(h.requests i).2]
      exact (hmet t ht _).symm)
  refine ⟨u, lbs.map Prod.snd, ?_, g2, fun t ht => ?_, fun v hv hne => h4 v (by simp [Allowed]) (fun lv hl => ?_) hne⟩
  · unfold control
    rw [hq, numbers_nums, Outcome.bind_ok]
    show (evalTasks N q _ s.bufs).bind _ = _
    rw [show (stackLoop svd N th maxSq ff tasks dt).tasks = tasks.map fun t => ⟨[t.map.feat], t.gain, t.selec⟩ from rfl, g1]
    show (computeControlLaw svd N th maxSq false none none (lbs.map Prod.fst)).map _ = _
    rw [h1]; rfl
  · obtain ⟨lv, hl, h⟩ := htv t ht
    have := h3 lv hl
    rw [h.mulVec, h.mulVec] at this
    intro i
    have := congrFun this (Fin.cast h.size.symm i)
    simp only [Fin.cast_cast, Fin.cast_eq_self] at this
    rw [this, hmet t ht]
  · obtain ⟨t, ht, h⟩ := hlv lv hl
    rw [h.mulVec, h.mulVec]
    funext i
    rw [hv t ht, hmet t ht]

/-! ### One step and several steps -/

/-- What holds at each step: the numbers of the device are `q`, its settings are those of `d0`. -/
structure SInv {N : Nat} (tasks : List (MTask N)) (d0 : Dev ℝ) (s : St) (q : List ℝ) : Prop where
  settings : SameSettings d0 s.dev
  state : s.dev.state = nums q
  shown : s.dev.stateSOUT = nums q
  size : q.length = N
  bufs : List.Forall₂ (fun t b => Good N t.map.m b) tasks s.bufs

theorem step_stack (svd : ∀ {m c : ℕ} (A : Matrix (Fin m) (Fin c) ℝ), Svd A) {N : Nat} (hN : 6 ≤ N) {th maxSq : ℝ}
    {ff : List (Option ℝ) → List (Option ℝ) → ℝ → (Fin 6 → Option ℝ)} {tasks : List (MTask N)} {dt : ℝ} (hff : BaseNumbers ff dt)
    {d0 : Dev ℝ} (hm : d0.mode = .oneInteg) (hs : d0.sanity = false) {s : St} {q : List ℝ} (hi : SInv tasks d0 s q) {u : Fin N → ℝ}
    {bufs : List Buf} (hc : control (stackLoop svd N th maxSq ff tasks dt) s = .ok (u, [], bufs))
    (hb : List.Forall₂ (fun t b => Good N t.map.m b) tasks bufs) :
    ∃ s' q', step (stackLoop svd N th maxSq ff tasks dt) s = .ok s' ∧ SInv tasks d0 s' q' ∧ s'.reports = s.reports ++ [[]] ∧
      ∀ i : Fin N, 6 ≤ i.val → vec N q' i = vec N q i + dt * u i := by
  have hlen : (List.ofFn u).length = q.length := by simp [hi.size]
  obtain ⟨d', q', e1, e2, e3, e4, e5, -, -, e8⟩ := device_step ff s.dev q (List.ofFn u) dt
    (by rw [hi.settings.2.1, hm]) hi.state (by omega) (fun _ => by have := hi.size; omega)
    (fun he i => by rw [hi.state]; exact hff q _ (by have := hi.size; omega) he i) (.inl (by rw [hi.settings.1, hs]))
  refine ⟨⟨d', bufs, s.reports ++ [[]]⟩, q', ?_, ⟨hi.settings.trans e5, e2, e3, by rw [e4, hi.size], hb⟩, rfl, ?_⟩
  · unfold step
    rw [hc, Outcome.bind_ok]
    show (Device.increment ff s.dev (List.ofFn fun i => some (u i)) dt).map _ = _
    rw [ofFn_nums, e1]; rfl
  · intro i hi6
    have hiq : i.val < q.length := by rw [hi.size]; exact i.isLt
    obtain ⟨y, y1, y2⟩ := e8 i.val q[i.val] (u i) (fun _ => hi6) (by
      rw [hlen, Nat.sub_self, Nat.zero_add, List.getElem?_eq_getElem hiq]) (by
      rw [List.getElem?_ofFn, dif_pos i.isLt])
    rw [hlen, Nat.sub_self, Nat.zero_add] at y1 y2
    have hq : vec N q i = q[i.val] := by unfold vec; rw [List.getD, List.getElem?_eq_getElem hiq]; rfl
    have hy : vec N q' i = y := by unfold vec; rw [List.getD, y1]; rfl
    rw [hq, hy]
    rcases y2 with ⟨-, h⟩ | ⟨h, -⟩
    · exact h
    · rw [hi.settings.1, hs] at h; cases h

/-- The function of the task is affine, its matrix is the right one, and it moves selected joints after the first six only. -/
def MTask.Affine {N : Nat} (t : MTask N) : Prop :=
  ∃ (A : Matrix (Fin t.map.m) (Fin N) ℝ) (b : Fin t.map.m → ℝ), (∀ x i, t.map.f x i = (A *ᵥ x) i + b i) ∧ (∀ x, t.map.J x = A) ∧
    ∀ i j, (j.val < 6 ∨ Flags.call t.selec ((j.val : ℕ) : Int) ≠ .ok true) → A i j = 0

theorem MTask.Affine.jac_eq {N : Nat} {t : MTask N} (h : t.Affine) (x y : Fin N → ℝ) : t.jac x = t.jac y := by
  obtain ⟨A, b, -, h2, -⟩ := h
  unfold MTask.jac
  rw [h2 x, h2 y]

theorem MTask.Affine.moved {N : Nat} {t : MTask N} (h : t.Affine) (x x' : Fin N → ℝ) (v : Fin N → ℝ)
    (hx : ∀ j : Fin N, 6 ≤ j.val → x' j = x j + v j) (i : Fin t.map.m) : t.map.f x' i = t.map.f x i + (t.jac x *ᵥ v) i := by
  classical
  obtain ⟨A, b, h1, h2, h3⟩ := h
  rw [h1, h1]
  have hJ : t.jac x = A := by
    ext i j
    simp only [MTask.jac, Matrix.of_apply, h2]
    split_ifs with hj
    · rfl
    · exact (h3 i j (.inr hj)).symm
  have hA : (A *ᵥ x') i = (A *ᵥ x) i + (A *ᵥ v) i := by
    simp only [Matrix.mulVec, dotProduct]
    rw [← Finset.sum_add_distrib]
    apply Finset.sum_congr rfl
    intro j _
    by_cases hj : 6 ≤ j.val
    · rw [hx j hj]; ring
    · rw [h3 i j (.inl (by omega))]; ring
  rw [hJ, hA]
  ring

/-- The loop can start: at least six joints, a threshold, a task, a device driven in velocity without checks, whose state is `q`, and the margin of
the tasks (they are affine, so it is the same everywhere). -/
structure SSetup {N : Nat} (th : ℝ) (ff : List (Option ℝ) → List (Option ℝ) → ℝ → (Fin 6 → Option ℝ)) (tasks : List (MTask N)) (dt : ℝ)
    (d : Dev ℝ) (q : List ℝ) : Prop where
  joints : 6 ≤ N
  threshold : 0 ≤ th
  someTask : tasks ≠ []
  affine : ∀ t ∈ tasks, t.Affine
  margin : Margin th tasks (vec N q)
  base : BaseNumbers ff dt
  size : q.length = N
  mode : d.mode = .oneInteg
  sanity : d.sanity = false
  state : d.state = nums q
  shown : d.stateSOUT = nums q

section
variable (svd : ∀ {m c : ℕ} (A : Matrix (Fin m) (Fin c) ℝ), Svd A) {N : Nat} {th : ℝ} (maxSq : ℝ)
  {ff : List (Option ℝ) → List (Option ℝ) → ℝ → (Fin 6 → Option ℝ)} {tasks : List (MTask N)} {dt : ℝ} {d : Dev ℝ} {q : List ℝ}

theorem SSetup.inv (h : SSetup th ff tasks dt d q) : SInv tasks d (start (stackLoop svd N th maxSq ff tasks dt) d) q := by
  refine ⟨.refl d, h.state, h.shown, h.size, ?_⟩
  show List.Forall₂ _ tasks (((tasks.map fun t => (⟨[t.map.feat], t.gain, t.selec⟩ : TaskDef))).map fun _ => Buf.new)
  clear h
  induction tasks with
  | nil => exact .nil
  | cons t ts ih => exact .cons (good_new _ _) ih

theorem Margin.affine {x y : Fin N → ℝ} (ha : ∀ t ∈ tasks, t.Affine) (h : Margin th tasks x) : Margin th tasks y := by
  rcases h with h | ⟨a, h1, h2⟩
  · exact .inl h
  · refine .inr ⟨a, h1, fun pre t post hs z => ?_⟩
    obtain ⟨d, d1, d2, d3⟩ := h2 pre t post hs z
    subst hs
    refine ⟨d, fun p hp => ?_, ?_, d3⟩
    · rw [(ha p (by simp [hp])).jac_eq y x]; exact d1 p hp
    · rw [(ha t (by simp)).jac_eq y x]; exact d2

/-- C126. As long as some velocity within the limit meets all the tasks, each step multiplies the error of each affine task by one minus its gain
times the period, whatever the tasks above and below it; no task is reported. -/
theorem C126_errors (h : SSetup th ff tasks dt d q) (k : Nat)
    (hw : ∀ j < k, ∃ w : Fin N → ℝ, w ⬝ᵥ w ≤ maxSq ∧ ∀ t ∈ tasks, ∀ i,
      (t.jac (vec N q) *ᵥ w) i = -t.gain * ((1 - t.gain * dt) ^ j * t.map.f (vec N q) i)) :
    ∃ s q', steps (stackLoop svd N th maxSq ff tasks dt) k (start (stackLoop svd N th maxSq ff tasks dt) d) = .ok s ∧
      s.dev.state = nums q' ∧ q'.length = N ∧ s.reports = List.replicate k [] ∧
      ∀ t ∈ tasks, ∀ i, t.map.f (vec N q') i = (1 - t.gain * dt) ^ k * t.map.f (vec N q) i := by
  suffices hk : ∃ s q', steps (stackLoop svd N th maxSq ff tasks dt) k (start (stackLoop svd N th maxSq ff tasks dt) d) = .ok s ∧
      SInv tasks d s q' ∧ s.reports = List.replicate k [] ∧
      ∀ t ∈ tasks, ∀ i, t.map.f (vec N q') i = (1 - t.gain * dt) ^ k * t.map.f (vec N q) i by
    obtain ⟨s, q', a1, a2, a3, a4⟩ := hk
    exact ⟨s, q', a1, a2.state, a2.size, a3, a4⟩
  induction k with
  | zero => exact ⟨_, q, rfl, h.inv svd maxSq, rfl, fun t _ i => by simp⟩
  | succ k ih =>
    obtain ⟨s, q1, a1, a2, a3, a4⟩ := ih (fun j hj => hw j (by omega))
    obtain ⟨w, w1, w2⟩ := hw k (by omega)
    obtain ⟨u, bufs, c1, c2, c3, -⟩ := control_stack svd (by have := h.joints; omega) h.threshold ff h.someTask dt a2.shown a2.bufs
      (h.margin.affine h.affine) w w1 (fun t ht i => by rw [(h.affine t ht).jac_eq _ (vec N q), w2 t ht, a4 t ht])
    obtain ⟨s', q', e1, e2, e3, e4⟩ := step_stack svd h.joints h.base h.mode h.sanity a2 c1 c2
    refine ⟨s', q', ?_, e2, by rw [e3, a3, ← List.replicate_succ'], fun t ht i => ?_⟩
    · show (steps _ k _).bind _ = _
      rw [a1]; exact e1
    · rw [(h.affine t ht).moved (vec N q1) (vec N q') (dt • u) (fun j hj => by rw [e4 j hj]; rfl), Matrix.mulVec_smul]
      show _ + dt * (t.jac (vec N q1) *ᵥ u) i = _
      rw [c3 t ht, a4 t ht]
      ring

/-- The tasks are met by a velocity times a number when their errors are multiplied by it. -/
theorem met_smul {x y : Fin N → ℝ} {c : ℝ} {w : Fin N → ℝ} {t : MTask N} (ha : t.Affine) (hf : ∀ i, t.map.f y i = c * t.map.f x i)
    (hw : t.Met x w) : t.Met y (c • w) := by
  intro i
  rw [ha.jac_eq y x, Matrix.mulVec_smul]
  show c * (t.jac x *ᵥ w) i = _
  rw [hw i, hf i]
  ring

/-- C126. With the same gain for all the affine tasks, if some velocity within the limit meets them all at the start, the robot moves along a straight
line: the joints after `k` steps are the first ones plus a multiple of the shortest velocity that meets the tasks; no task is reported. -/
theorem C126_line (h : SSetup th ff tasks dt d q) {gain : ℝ} (hg : ∀ t ∈ tasks, t.gain = gain) (h0 : 0 ≤ gain * dt) (h2 : gain * dt ≤ 2)
    (w : Fin N → ℝ) (hw : w ⬝ᵥ w ≤ maxSq) (hmet : ∀ t ∈ tasks, t.Met (vec N q) w) :
    ∃ u : Fin N → ℝ, (∀ t ∈ tasks, t.Met (vec N q) u) ∧ (∀ v, (∀ t ∈ tasks, t.Met (vec N q) v) → v ≠ u → u ⬝ᵥ u < v ⬝ᵥ v) ∧
      ∀ k, ∃ s q', steps (stackLoop svd N th maxSq ff tasks dt) k (start (stackLoop svd N th maxSq ff tasks dt) d) = .ok s ∧
        s.dev.state = nums q' ∧ q'.length = N ∧ s.reports = List.replicate k [] ∧
        ∀ i : Fin N, 6 ≤ i.val → vec N q' i = vec N q i + dt * (∑ j ∈ Finset.range k, (1 - gain * dt) ^ j) * u i := by
  have hN : 0 < N := by have := h.joints; omega
  obtain ⟨u, -, -, -, u3, u4⟩ := control_stack svd hN h.threshold ff h.someTask dt (s := start (stackLoop svd N th maxSq ff tasks dt) d) (maxSq := maxSq)
    h.shown (h.inv svd maxSq).bufs h.margin w hw hmet
  have hu : u ⬝ᵥ u ≤ maxSq := by
    by_cases hwu : w = u
    · rw [← hwu]; exact hw
    · exact le_trans (u4 w hmet hwu).le hw
  refine ⟨u, u3, u4, ?_⟩
  suffices hk : ∀ k, ∃ s q', steps (stackLoop svd N th maxSq ff tasks dt) k (start (stackLoop svd N th maxSq ff tasks dt) d) = .ok s ∧
      SInv tasks d s q' ∧ s.reports = List.replicate k [] ∧
      ∀ i : Fin N, 6 ≤ i.val → vec N q' i = vec N q i + dt * (∑ j ∈ Finset.range k, (1 - gain * dt) ^ j) * u i by
    intro k
    obtain ⟨s, q', a1, a2, a3, a4⟩ := hk k
    exact ⟨s, q', a1, a2.state, a2.size, a3, a4⟩
  set c := 1 - gain * dt with hc
  have hc1 : c ^ 2 ≤ 1 := by
    have : |c| ≤ 1 := by rw [abs_le]; constructor <;> linarith
    rw [← sq_abs]; exact pow_le_one₀ (abs_nonneg _) this
  intro k
  induction k with
  | zero => exact ⟨_, q, rfl, h.inv svd maxSq, rfl, fun i _ => by simp⟩
  | succ k ih =>
    obtain ⟨s, q1, a1, a2, a3, a4⟩ := ih
    have hf : ∀ t ∈ tasks, ∀ i, t.map.f (vec N q1) i = c ^ k * t.map.f (vec N q) i := by
      intro t ht i
      rw [(h.affine t ht).moved (vec N q) (vec N q1) ((dt * ∑ j ∈ Finset.range k, c ^ j) • u) (fun j hj => by rw [a4 j hj]; rfl), Matrix.mulVec_smul]
      show _ + (dt * ∑ j ∈ Finset.range k, c ^ j) * (t.jac (vec N q) *ᵥ u) i = _
      rw [u3 t ht, hg t ht]
      have hgeo := mul_neg_geom_sum c k
      have h1c : 1 - c = gain * dt := by rw [hc]; ring
      rw [h1c] at hgeo
      linear_combination (-(t.map.f (vec N q) i)) * hgeo
    have hmk : ∀ t ∈ tasks, t.Met (vec N q1) (c ^ k • u) := fun t ht => met_smul (h.affine t ht) (hf t ht) (u3 t ht)
    have hsq : (c ^ k • u) ⬝ᵥ (c ^ k • u) = (c ^ 2) ^ k * (u ⬝ᵥ u) := by
      rw [smul_dotProduct, dotProduct_smul, smul_eq_mul, smul_eq_mul]
      ring
    have hlim : (c ^ k • u) ⬝ᵥ (c ^ k • u) ≤ maxSq := by
      rw [hsq]
      calc (c ^ 2) ^ k * (u ⬝ᵥ u) ≤ 1 * (u ⬝ᵥ u) := mul_le_mul_of_nonneg_right (pow_le_one₀ (sq_nonneg _) hc1) (dot_self_nonneg u)
        _ ≤ maxSq := by rw [one_mul]; exact hu
    obtain ⟨v, bufs, c1, c2, c3, c4⟩ := control_stack svd hN h.threshold ff h.someTask dt a2.shown a2.bufs
      (h.margin.affine h.affine) _ hlim hmk
    have hv : v = c ^ k • u := by
      by_contra hne
      have h1 := c4 _ hmk (fun e => hne e.symm)
      rw [hsq] at h1
      by_cases hz : c ^ k = 0
      · have : (c ^ 2) ^ k = 0 := by rw [← pow_mul, mul_comm, pow_mul, hz]; simp
        rw [this, zero_mul] at h1
        exact absurd h1 (not_lt.mpr (dot_self_nonneg v))
      · have hm0 : ∀ t ∈ tasks, t.Met (vec N q) ((c ^ k)⁻¹ • v) := fun t ht => met_smul (h.affine t ht)
          (fun i => by rw [hf t ht i, inv_mul_cancel_left₀ hz]) (c3 t ht)
        have hne2 : (c ^ k)⁻¹ • v ≠ u := by
          intro e
          apply hne
          rw [← e, smul_smul, mul_inv_cancel₀ hz, one_smul]
        have h3 := u4 _ hm0 hne2
        rw [smul_dotProduct, dotProduct_smul, smul_eq_mul, smul_eq_mul] at h3
        have hp : 0 < (c ^ 2) ^ k := by
          rw [← pow_mul, mul_comm, pow_mul]
          positivity
        have h4 : (c ^ 2) ^ k * ((c ^ k)⁻¹ * ((c ^ k)⁻¹ * (v ⬝ᵥ v))) = v ⬝ᵥ v := by
          rw [← pow_mul, mul_comm 2 k, pow_mul]
          field_simp
        have h5 := mul_lt_mul_of_pos_left h3 hp
        rw [h4] at h5
        linarith
    obtain ⟨s', q', e1, e2, e3, e4⟩ := step_stack svd h.joints h.base h.mode h.sanity a2 c1 c2
    refine ⟨s', q', ?_, e2, by rw [e3, a3, ← List.replicate_succ'], fun i hi => ?_⟩
    · show (steps _ k _).bind _ = _
      rw [a1]; exact e1
    · rw [e4 i hi, a4 i hi, hv, Finset.sum_range_succ]
      show _ + dt * (c ^ k * u i) = _
      ring

/-- C126. In particular, with a gain times the period between zero and two, the joints converge to a place where the errors of all the tasks are zero, and
that place is the nearest one to the start. -/
theorem C126_converges (h : SSetup th ff tasks dt d q) {gain : ℝ} (hg : ∀ t ∈ tasks, t.gain = gain) (h0 : 0 < gain * dt) (h2 : gain * dt < 2)
    (w : Fin N → ℝ) (hw : w ⬝ᵥ w ≤ maxSq) (hmet : ∀ t ∈ tasks, t.Met (vec N q) w) :
    ∃ (traj : Nat → List ℝ) (goal : Fin N → ℝ),
      (∀ k, ∃ s, steps (stackLoop svd N th maxSq ff tasks dt) k (start (stackLoop svd N th maxSq ff tasks dt) d) = .ok s ∧
        s.dev.state = nums (traj k) ∧ s.reports = List.replicate k []) ∧
      (∀ i : Fin N, 6 ≤ i.val → Tendsto (fun k => vec N (traj k) i) atTop (𝓝 (goal i))) ∧
      (∀ t ∈ tasks, ∀ i, t.map.f goal i = 0) ∧
      ∀ z, (∀ t ∈ tasks, ∀ i, t.map.f z i = 0) → (goal - vec N q) ⬝ᵥ (goal - vec N q) ≤ (z - vec N q) ⬝ᵥ (z - vec N q) := by
  obtain ⟨u, u1, u2, u3⟩ := C126_line svd maxSq h hg h0.le h2.le w hw hmet
  choose s traj a1 a2 a3 a4 a5 using u3
  have hgain : gain ≠ 0 := by rintro rfl; simp at h0
  have habs : |1 - gain * dt| < 1 := by rw [abs_lt]; constructor <;> linarith
  refine ⟨traj, vec N q + gain⁻¹ • u, fun k => ⟨s k, a1 k, a2 k, a4 k⟩, fun i hi => ?_, fun t ht i => ?_, fun z hz => ?_⟩
  · have hdt : dt ≠ 0 := by rintro rfl; simp at h0
    have hclosed : ∀ k, vec N (traj k) i = vec N q i + (1 - (1 - gain * dt) ^ k) * gain⁻¹ * u i := by
      intro k
      rw [a5 k i hi]
      have hgeo := mul_neg_geom_sum (1 - gain * dt) k
      have h1c : 1 - (1 - gain * dt) = gain * dt := by ring
      rw [h1c] at hgeo
      rw [← hgeo]
      field_simp
    have hlim : Tendsto (fun k => vec N q i + (1 - (1 - gain * dt) ^ k) * gain⁻¹ * u i) atTop
        (𝓝 (vec N q i + (1 - 0) * gain⁻¹ * u i)) :=
      ((((tendsto_pow_atTop_nhds_zero_of_abs_lt_one habs).const_sub 1).mul_const _).mul_const _).const_add _
    rw [sub_zero, one_mul] at hlim
    exact hlim.congr fun k => (hclosed k).symm
  · rw [(h.affine t ht).moved (vec N q) (vec N q + gain⁻¹ • u) (gain⁻¹ • u) (fun j _ => rfl), Matrix.mulVec_smul]
    show _ + gain⁻¹ * (t.jac (vec N q) *ᵥ u) i = _
    rw [u1 t ht, hg t ht]
    field_simp
    ring
  · rw [add_sub_cancel_left]
    have hm : ∀ t ∈ tasks, t.Met (vec N q) (gain • (z - vec N q)) := by
      intro t ht i
      have := (h.affine t ht).moved (vec N q) z (z - vec N q) (fun j _ => by simp) i
      rw [hz t ht] at this
      rw [Matrix.mulVec_smul, hg t ht]
      show gain * (t.jac (vec N q) *ᵥ (z - vec N q)) i = _
      linear_combination (-gain) * this
    have hle : u ⬝ᵥ u ≤ (gain • (z - vec N q)) ⬝ᵥ (gain • (z - vec N q)) := by
      by_cases e : gain • (z - vec N q) = u
      · rw [e]
      · exact (u2 _ hm e).le
    generalize z - vec N q = y at *
    rw [smul_dotProduct, dotProduct_smul, smul_eq_mul, smul_eq_mul] at hle ⊢
    have hp : 0 < gain * gain := mul_self_pos.mpr hgain
    have h4 : gain * gain * (gain⁻¹ * (gain⁻¹ * (u ⬝ᵥ u))) = u ⬝ᵥ u := by field_simp
    have h5 : gain * gain * (gain⁻¹ * (gain⁻¹ * (u ⬝ᵥ u))) ≤ gain * gain * (y ⬝ᵥ y) := by
      rw [h4]; linarith
    exact le_of_mul_le_mul_left h5 hp

/-- C126. For any tasks, affine or not: when some velocity within the limit meets them all, the control makes the error of each task decrease at its
gain, if the matrix of the feature is its derivative and is zero for the joints that are not selected. -/
theorem C126_decrease (hN : 0 < N) (hth : 0 ≤ th) (hne : tasks ≠ []) {s : St} (hq : s.dev.stateSOUT = nums q)
    (hb : List.Forall₂ (fun t b => Good N t.map.m b) tasks s.bufs) (hm : Margin th tasks (vec N q))
    (hsel : ∀ t ∈ tasks, ∀ i j, Flags.call t.selec ((j.val : ℕ) : Int) ≠ .ok true → t.map.J (vec N q) i j = 0)
    (hder : ∀ t ∈ tasks, ∀ i, ∀ v : Fin N → ℝ, HasDerivAt (fun τ : ℝ => t.map.f (vec N q + τ • v) i) ((t.map.J (vec N q) *ᵥ v) i) 0)
    (w : Fin N → ℝ) (hw : w ⬝ᵥ w ≤ maxSq) (hmet : ∀ t ∈ tasks, t.Met (vec N q) w) :
    ∃ (u : Fin N → ℝ) (bufs : List Buf), control (stackLoop svd N th maxSq ff tasks dt) s = .ok (u, [], bufs) ∧
      ∀ t ∈ tasks, ∀ i, HasDerivAt (fun τ : ℝ => t.map.f (vec N q + τ • u) i) (-t.gain * t.map.f (vec N q) i) 0 := by
  classical
  obtain ⟨u, bufs, c1, -, c3, -⟩ := control_stack svd hN hth ff hne dt hq hb hm w hw hmet
  refine ⟨u, bufs, c1, fun t ht i => ?_⟩
  have hJ : t.jac (vec N q) = t.map.J (vec N q) := by
    ext i j
    simp only [MTask.jac, Matrix.of_apply]
    split_ifs with hj
    · rfl
    · exact (hsel t ht i j hj).symm
  rw [← c3 t ht i, hJ]
  exact hder t ht i u

end

/-! ### The hypotheses are met -/

/-- A task with one row `c x - b` on a robot with eight joints; all the joints are selected. -/
noncomputable def rowTask (c : Fin 8 → ℝ) (b gain : ℝ) : MTask 8 where
  map := { m := 1, f := fun x _ => c ⬝ᵥ x - b, J := fun _ => Matrix.of fun _ j => c j }
  gain := gain
  selec := Flags.ofBool true

theorem rowTask_affine (c : Fin 8 → ℝ) (b gain : ℝ) (h : ∀ j : Fin 8, j.val < 6 → c j = 0) : (rowTask c b gain).Affine := by
  refine ⟨Matrix.of fun _ j => c j, fun _ => -b, fun x i => ?_, fun x => rfl, fun i j hj => ?_⟩
  · show c ⬝ᵥ x - b = c ⬝ᵥ x + -b
    ring
  · rcases hj with hj | hj
    · exact h j hj
    · exact absurd rfl hj

theorem rowTask_met (c : Fin 8 → ℝ) (b gain : ℝ) (x w : Fin 8 → ℝ) (h : c ⬝ᵥ w = -gain * (c ⬝ᵥ x - b)) : (rowTask c b gain).Met x w := by
  intro i
  rw [← show c ⬝ᵥ w = -(rowTask c b gain).gain * (rowTask c b gain).map.f x i from h]
  unfold Matrix.mulVec
  congr 1

/-- The joint 6. -/
def c6 : Fin 8 → ℝ := fun j => if j = 6 then 1 else 0

/-- The sum of the joints 6 and 7. -/
def c67 : Fin 8 → ℝ := fun j => if j = 6 then 1 else if j = 7 then 1 else 0

/-- A robot at zero. -/
noncomputable def zeroDev : Dev ℝ :=
  { init with sanity := false, state := nums (List.replicate 8 0), stateSOUT := nums (List.replicate 8 0) }

/-- The joint 6 has to be at one and its sum with the joint 7 at three: the robot converges to a place where both hold. -/
example (svd : ∀ {m c : ℕ} (A : Matrix (Fin m) (Fin c) ℝ), Svd A) :
    ∃ (traj : Nat → List ℝ) (goal : Fin 8 → ℝ),
      (∀ k, ∃ s, steps (stackLoop svd 8 0 10000 (fun _ _ _ _ => some 0) [rowTask c6 1 10, rowTask c67 3 10] (1 / 100)) k
        (start (stackLoop svd 8 0 10000 (fun _ _ _ _ => some 0) [rowTask c6 1 10, rowTask c67 3 10] (1 / 100)) zeroDev) = .ok s ∧
        s.dev.state = nums (traj k) ∧ s.reports = List.replicate k []) ∧
      (∀ i : Fin 8, 6 ≤ i.val → Tendsto (fun k => vec 8 (traj k) i) atTop (𝓝 (goal i))) ∧ goal 6 = 1 ∧ goal 7 = 2 := by
  have hs : SSetup 0 (fun _ _ _ _ => some 0) [rowTask c6 1 10, rowTask c67 3 10] (1 / 100) zeroDev (List.replicate 8 0) :=
    ⟨by decide, le_refl _, by simp, by
      intro t ht
      simp only [List.mem_cons, List.not_mem_nil, or_false] at ht
      rcases ht with rfl | rfl
      · refine rowTask_affine _ _ _ fun j hj => if_neg ?_
        rintro rfl
        exact absurd hj (by decide)
      · refine rowTask_affine _ _ _ fun j hj => ?_
        unfold c67
        rw [if_neg (by rintro rfl; exact absurd hj (by decide)), if_neg (by rintro rfl; exact absurd hj (by decide))],
      .inl rfl, fun _ _ _ => by simp, by simp, rfl, rfl, rfl, rfl⟩
  have hv : vec 8 (List.replicate 8 0) = 0 := by
    funext i
    unfold vec
    rw [List.getD, List.getElem?_replicate, if_pos i.isLt]; rfl
  have h6 : ∀ z : Fin 8 → ℝ, c6 ⬝ᵥ z = z 6 := by
    intro z
    simp [c6, dotProduct]
  have h67 : ∀ z : Fin 8 → ℝ, c67 ⬝ᵥ z = z 6 + z 7 := by
    intro z
    simp [c67, dotProduct, Fin.sum_univ_eight]
  obtain ⟨traj, goal, a1, a2, a3, -⟩ := C126_converges svd 10000 hs (gain := 10) (by simp [rowTask]) (by norm_num) (by norm_num)
    (fun j => if j = 6 then 10 else if j = 7 then 20 else 0) (by simp [dotProduct, Fin.sum_univ_eight]; norm_num) (by
      intro t ht
      rw [hv]
      simp only [List.mem_cons, List.not_mem_nil, or_false] at ht
      rcases ht with rfl | rfl
      · apply rowTask_met
        rw [h6, h6]
        norm_num
      · apply rowTask_met
        rw [h67, h67]
        simp only [if_true, if_neg (show ¬(7 : Fin 8) = 6 by decide)]
        norm_num)
  have g6 : goal 6 = 1 := by
    have : c6 ⬝ᵥ goal - 1 = 0 := a3 (rowTask c6 1 10) (by simp) (0 : Fin 1)
    rw [h6] at this
    linarith
  have g7 : goal 6 + goal 7 = 3 := by
    have : c67 ⬝ᵥ goal - 3 = 0 := a3 (rowTask c67 3 10) (by simp) (0 : Fin 1)
    rw [h67] at this
    linarith
  exact ⟨traj, goal, a1, a2, g6, by linarith⟩

end Verif.Loop
