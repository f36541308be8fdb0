import Verif.Loop.Posture
import Verif.Loop.Second
import Verif.Task.TaskProps

/-!
# C153: a posture followed by a task with a derivative term

The task of the loop of C124 is a `TaskPD` (src/task/task-pd.cpp), which subtracts `beta` times the variation of the error since the
previous evaluation. The variation is its own one (plugged by the constructor, src/task/task-pd.cpp:45), the option of the derivative of
the error is off. The rest of the loop is the one of `Verif.Loop.Model`.
-/

namespace Verif.Loop

open Matrix Verif.Sot Verif.Features Verif.Device Filter Topology

/-! ### Model -/

/-- The loop and the error that the task keeps (include/sot/core/task-pd.hh:45). -/
structure PSt where
  st : St
  prev : List ℝ

/-- What the stack reads from a task with one feature whose vector is `v` (src/task/task.cpp:252-313, src/sot/sot.cpp:536-540). -/
noncomputable def withVec (n : Nat) (q : List ℝ) (f : Feat) (selec : Flags.Flags) (b : Buf) (e : List ℝ)
    (v : List (MultiBound.MultiBound ℝ)) : Outcome (Sot.Level n × Buf) :=
  (f.jac q).bind fun J0 =>
  (Task.computeJacobian b.jac [J0]).bind fun J =>
  (level n selec b.mem v J).map fun lv => (lv, ⟨e, J, some (b.mem.getD (v.length, n))⟩)

/-- The control of a stack whose only task is a `TaskPD` with the feature `f` (src/task/task-pd.cpp:52-85, src/sot/sot.cpp:524-548), and the
error it keeps. The tasks of the parameters are not read. -/
noncomputable def controlP (P : Params) (f : Feat) (gain beta : ℝ) (selec : Flags.Flags) (s : PSt) :
    Outcome ((Fin P.n → ℝ) × List Nat × List Buf × List ℝ) :=
  (numbers s.st.dev.stateSOUT).bind fun q =>
  (f.err q).bind fun e0 =>
  (Task.computeError (s.st.bufs.headD .new).err [e0]).bind fun e =>
  (Task.pdStep beta gain s.prev e).bind fun v =>
  (withVec P.n q f selec (s.st.bufs.headD .new) e v.1).bind fun lb =>
  (Sot.computeControlLaw P.svd P.n P.th P.maxSq false none none [lb.1]).map fun r => (r.1, r.2, [lb.2], v.2)

/-- One step (src/tools/device.cpp:414-476). -/
noncomputable def stepP (P : Params) (f : Feat) (gain beta : ℝ) (selec : Flags.Flags) (s : PSt) : Outcome PSt :=
  (controlP P f gain beta selec s).bind fun c =>
  (Device.increment P.ff s.st.dev (List.ofFn fun i => some (c.1 i)) P.dt).map fun d =>
    ⟨⟨d, c.2.2.1, s.st.reports ++ [c.2.1]⟩, c.2.2.2⟩

/-- Several steps. -/
noncomputable def stepsP (P : Params) (f : Feat) (gain beta : ℝ) (selec : Flags.Flags) : Nat → PSt → Outcome PSt
  | 0, s => .ok s
  | k + 1, s => (stepsP P f gain beta selec k s).bind (stepP P f gain beta selec)

/-- The loop at the beginning: the task keeps no error (src/task/task-pd.cpp:34). -/
def startP (d : Dev ℝ) : PSt := ⟨⟨d, [.new], []⟩, []⟩

/-! ### One task -/

theorem withVec_ok (n : Nat) (hn : 0 < n) (q : List ℝ) (f : Feat) (sel : Flags.Flags) (b : Buf) (e v : List ℝ)
    (J : Task.DMat ℝ) (hJ : f.jac q = .ok J) (w : List (MultiBound.MultiBound ℝ)) (hw : Task.Singles w v)
    (hr : J.rows = v.length) (hc : J.cols = n)
    (hs : ∀ i < v.length, ∀ j < n, J.at_ i j ≠ none) (hb : Good n v.length b) :
    ∃ (lv : Level n) (b' : Buf), withVec n q f sel b e w = .ok (lv, b') ∧ Good n v.length b' ∧ lv.m = v.length ∧ lv.selec = some sel ∧
      (∀ s, lv.mem = some s → lv.m ≤ s.1 ∧ n ≤ s.2) ∧ Requests lv (fun i => v.getD i.val 0) ∧
      ∀ (i : Fin lv.m) (j : Fin n), J.at_ i.val j.val = some (lv.jac i j) := by
  obtain ⟨J', hJ', hst⟩ : ∃ J', Task.computeJacobian b.jac [J] = .ok J' ∧ Task.IsStack J' [J] n := by
    rcases hb.1 with h | h
    · exact Task.C15_stack_partial b.jac [J] n hn h (by simp) (by simpa using hc)
    · exact Task.C15_stack_fresh_partial b.jac [J] n hn h (by simp) (by simpa using hc)
  obtain ⟨s1, s2, s3⟩ := hst
  have hrows : Task.totalRows [J] = v.length := by simp [Task.totalRows, hr]
  rw [hrows] at s1 s3
  have s4 : ∀ i j, i < v.length → j < n → J'.at_ i j = J.at_ i j := by
    intro i j hi hj
    rw [s3 i j hi hj, Task.stackAt, if_pos (by omega)]
  obtain ⟨hw2, hw3⟩ := hw
  have hcond : J'.rows = w.length ∧ J'.cols = n ∧ ∀ i < w.length, ∀ j < n, J'.at_ i j ≠ none := by
    refine ⟨by rw [s1, hw2], s2, fun i hi j hj => ?_⟩
    rw [s4 i j (by omega) hj]
    exact hs i (by omega) j hj
  refine ⟨⟨w.length, Matrix.of fun i j => (J'.at_ i.val j.val).getD 0, some sel, fun i => w[i], false, b.mem⟩,
    ⟨e, J', some (b.mem.getD (w.length, n))⟩, ?_, ⟨.inl s2, ?_⟩, hw2, rfl, ?_, ?_, ?_⟩
  · simp only [withVec, hJ, Outcome.bind_ok, hJ', level, if_pos hcond]
    rfl
  · rintro s h
    simp only [Option.some.injEq] at h
    subst h
    cases hm : b.mem with
    | none => simp [hw2]
    | some s => exact hb.2 s hm
  · intro s h
    obtain ⟨h1, h2⟩ := hb.2 s h
    exact ⟨by show w.length ≤ _; omega, h2⟩
  · intro i
    have hi : i.val < w.length := i.isLt
    obtain ⟨x1, x2⟩ := hw3 i.val hi (by omega)
    simp only [MultiBound.getMode] at x1
    refine ⟨x1, ?_⟩
    simp only [MultiBound.getSingleBound, x1, if_true, ne_eq, not_true, if_false, Outcome.ok.injEq] at x2
    show (w[i.val]'hi).boundSingle = v.getD i.val 0
    rw [List.getD, List.getElem?_eq_getElem (by omega)]
    exact x2
  · intro i j
    have hi : i.val < v.length := by have := i.isLt; simp only at this; omega
    have h1 := hs i.val hi j.val j.isLt
    simp only [Matrix.of_apply]
    rw [s4 i.val j.val hi j.isLt]
    cases hx : J.at_ i.val j.val with
    | none => exact absurd hx h1
    | some x => rfl

/-- A posture whose task asks for `w j` of each of its joints. -/
theorem posture_vec (N : Nat) (hN : 0 < N) (hist : List (Nat × Bool)) (hh : ∃ r ∈ hist, r.1 < N) (q target e : List ℝ)
    (sel : Flags.Flags) (b : Buf) (hb : Good N (picked (wanted hist) N).length b) (w : Nat → ℝ)
    (t : List (MultiBound.MultiBound ℝ)) (ht : Task.Singles t ((picked (wanted hist) N).map w)) :
    ∃ (lv : Level N) (b' : Buf) (f : Fin lv.m → Fin N),
      withVec N q (postureFeat ((Posture.new : Posture ℝ).requests N hist) target) sel b e t = .ok (lv, b') ∧
      Good N (picked (wanted hist) N).length b' ∧ (∀ s, lv.mem = some s → lv.m ≤ s.1 ∧ N ≤ s.2) ∧
      Function.Injective f ∧ (∀ j : Fin N, (∃ i, f i = j) ↔ wanted hist j.val = true) ∧
      Requests lv (fun i => w (f i).val) ∧
      effJac lv = selMat f (fun j => Flags.call sel ((j.val : ℕ) : Int) = .ok true) := by
  set p := (Posture.new : Posture ℝ).requests N hist with hp
  obtain ⟨p1, p2, p3, p4⟩ := C51_history (F := ℝ) N hist
  rw [← hp] at p1 p2 p3 p4
  have hpc := requests_jacCols N hist hh
  rw [← hp] at hpc
  set idx := picked (wanted hist) N with hidx
  have hmem : ∀ k ∈ idx, k < N := fun k hk => by
    rw [hidx] at hk
    exact List.mem_range.mp (List.mem_filter.mp hk).1
  have hnd : idx.Nodup := by rw [hidx]; exact List.Nodup.filter _ List.nodup_range
  have hget : ∀ (i : Nat) (hi : i < idx.length) (j : Nat), j < N →
      ((p.jac[i]?).bind fun r => r[j]?) = some (if j = idx[i] then (1 : ℝ) else 0) := by
    intro i hi j hj
    rw [p2, List.getElem?_map, List.getElem?_eq_getElem hi]
    simp [unitRow, hj]
  have hvl : (idx.map w).length = idx.length := by simp
  obtain ⟨lv, b', h1, h2, h3, h4, h6, h7, h8⟩ := withVec_ok N hN q (postureFeat p target) sel b e (idx.map w)
    ⟨p.jac.length, p.jacCols, fun i j => (p.jac[i]?).bind fun r => r[j]?⟩ rfl t ht
    (by simp [p2]) hpc (by
      intro i hi j hj
      have := hget i (by omega) j hj
      exact fun h => by rw [show ((p.jac[i]?).bind fun r => r[j]?) = none from h] at this; cases this) (by rw [hvl]; exact hb)
  have hlt : ∀ i : Fin lv.m, i.val < idx.length := fun i => by have := i.isLt; omega
  refine ⟨lv, b', fun i => ⟨idx[i.val]'(hlt i), hmem _ (List.getElem_mem _)⟩, h1, by rw [hvl] at h2; exact h2, h6, ?_, ?_, ?_, ?_⟩
  · intro i k hik
    simp only [Fin.mk.injEq] at hik
    exact Fin.ext ((List.Nodup.getElem_inj_iff hnd).mp hik)
  · intro j
    constructor
    · rintro ⟨i, rfl⟩
      have : ∀ k ∈ idx, wanted hist k = true := fun k hk => by
        rw [hidx] at hk
        exact (List.mem_filter.mp hk).2
      exact this _ (List.getElem_mem _)
    · intro hw
      have : j.val ∈ idx := by
        rw [hidx]; exact List.mem_filter.mpr ⟨List.mem_range.mpr j.isLt, hw⟩
      obtain ⟨i, hi, hij⟩ := List.getElem_of_mem this
      exact ⟨⟨i, by omega⟩, Fin.ext hij⟩
  · intro i
    obtain ⟨r1, r2⟩ := h7 i
    refine ⟨r1, r2.trans ?_⟩
    show (idx.map w).getD i.val 0 = _
    rw [List.getD, List.getElem?_map, List.getElem?_eq_getElem (hlt i)]; rfl
  · classical
    ext i j
    have h9 : ((p.jac[i.val]?).bind fun r => r[j.val]?) = some (lv.jac i j) := h8 i j
    rw [hget i.val (hlt i) j.val j.isLt] at h9
    simp only [Option.some.injEq] at h9
    simp only [effJac, h4, selMat, Matrix.of_apply, ← h9, Fin.ext_iff]
    by_cases ha : j.val = idx[i.val]'(hlt i) <;> by_cases hb : Flags.call sel ((j.val : ℕ) : Int) = .ok true <;> simp [ha, hb]

/-! ### One step -/

section
variable (svd : ∀ {m c : ℕ} (A : Matrix (Fin m) (Fin c) ℝ), Svd A) (N : Nat) (th maxSq : ℝ)
    (ff : List (Option ℝ) → List (Option ℝ) → ℝ → (Fin 6 → Option ℝ)) (hist : List (Nat × Bool)) (target : List ℝ) (gain beta : ℝ)
    (sel : Flags.Flags) (dt : ℝ)

/-- The settings of the loop: the ones of the stack and of the device. -/
noncomputable def pdSettings : Params where
  svd := svd
  n := N
  th := th
  maxSq := maxSq
  ff := ff
  tasks := []
  dt := dt

/-- The feature: the joints asked by `hist`, the posture `target`. -/
noncomputable def pdFeat : Feat := postureFeat ((Posture.new : Posture ℝ).requests N hist) target

open scoped Classical in
/-- The square of the norm of the velocities `w` of the joints that are moved. -/
noncomputable def normSq (w : Nat → ℝ) : ℝ := ∑ j : Fin N, if Moved hist sel j.val then (w j.val) ^ 2 else 0

/-- What the task keeps is the error `p`, or nothing and then `p` is the error of the state. -/
def Keeps (prev : List ℝ) (q : List ℝ) (p : Nat → ℝ) : Prop :=
  prev = (picked (wanted hist) N).map p ∨ (prev = [] ∧ ∀ j, p j = q.getD j 0 - target.getD j 0)

/-- What the task asks of the joint `j`, with the previous errors `p`. -/
noncomputable def pdAsked (q : List ℝ) (p : Nat → ℝ) (j : Nat) : ℝ :=
  -gain * (q.getD j 0 - target.getD j 0) - beta * ((q.getD j 0 - target.getD j 0) - p j)

open scoped Classical in
theorem control_pd (hN : 0 < N) (h0 : 0 ≤ th) (h1 : th < 1) (hh : ∃ r ∈ hist, r.1 < N) (ht : target.length = N)
    {d0 : Dev ℝ} {s : PSt} {q : List ℝ} {p : Nat → ℝ} (hi : Inv N hist d0 s.st q) (hk : Keeps N hist target s.prev q p) :
    ∃ b, Good N (picked (wanted hist) N).length b ∧
      (normSq N hist sel (pdAsked target gain beta q p) ≤ maxSq →
        controlP (pdSettings svd N th maxSq ff dt) (pdFeat N hist target) gain beta sel s =
          .ok (fun j => if Moved hist sel j.val then pdAsked target gain beta q p j.val else 0, [], [b],
            (picked (wanted hist) N).map fun j => q.getD j 0 - target.getD j 0)) ∧
      (maxSq < normSq N hist sel (pdAsked target gain beta q p) →
        controlP (pdSettings svd N th maxSq ff dt) (pdFeat N hist target) gain beta sel s = .ok (0, [0], [b],
            (picked (wanted hist) N).map fun j => q.getD j 0 - target.getD j 0)) := by
  obtain ⟨b, hb, hgood⟩ := hi.buf
  set w := pdAsked target gain beta q p with hwdef
  set idx := picked (wanted hist) N with hidx
  set e : List ℝ := idx.map fun i => q.getD i 0 - target.getD i 0 with hedef
  have herr : (pdFeat N hist target).err q = .ok e := by
    obtain ⟨p1, p2, p3, p4⟩ := C51_history (F := ℝ) N hist
    have hal := p4 (by rintro rfl; simp at hh)
    have hpick : picked (fun i => ((Posture.new : Posture ℝ).requests N hist).active.getD i false)
        ((Posture.new : Posture ℝ).requests N hist).active.length = idx := by
      rw [hal, hidx]
      apply List.filter_congr
      intro i hi
      exact p1 i (List.mem_range.mp hi)
    have := hi.size
    show Posture.error _ q target (List.replicate _ 0) = _
    rw [C51_error _ q target _ (by omega) (by omega) (by rw [hpick, List.length_replicate, p3]), hpick]
  have hpd : Task.pdSpec beta gain (some s.prev) e = idx.map w := by
    rcases hk with hk | ⟨hk, hp⟩
    · rw [hk, ← hidx]
      simp only [Task.pdSpec, hedef, List.length_map, if_true, List.zipWith_map_left, List.zipWith_map_right, List.zipWith_self]
      apply List.map_congr_left
      intro j _
      rw [hwdef, pdAsked]; ring
    · rw [hk, Task.pdSpec_nil]
      simp only [Task.pdSpec, hedef, List.map_map]
      apply List.map_congr_left
      intro j _
      simp only [Function.comp, hwdef, pdAsked, hp]; ring
  obtain ⟨lv, b', f, g1, g2, g3, g4, g5, g6, g7⟩ := posture_vec N hN hist hh q target e sel b hgood w _ (Task.singles_map (idx.map w))
  have hu : (effJac lv)ᵀ *ᵥ (fun i => w (f i).val) = fun j => if Moved hist sel j.val then w j.val else 0 := by
    funext j
    rw [g7, selMat_transpose_mulVec f _ g4 _ (fun j => w j.val) (fun i => rfl) j]
    have hiff : ((∃ i, f i = j) ∧ Flags.call sel ((j.val : ℕ) : Int) = .ok true) ↔ Moved hist sel j.val := by rw [g5 j]; rfl
    exact if_congr hiff rfl rfl
  have hsq : (fun j : Fin N => if Moved hist sel j.val then w j.val else 0) ⬝ᵥ
      (fun j : Fin N => if Moved hist sel j.val then w j.val else 0) = normSq N hist sel w := by
    unfold dotProduct normSq
    apply Finset.sum_congr rfl
    intro j _
    by_cases hmv : Moved hist sel j.val
    · simp only [hmv, if_true]; ring
    · simp only [hmv, if_false]; ring
  obtain ⟨k1, k2⟩ := single_level svd (th := th) (maxSq := maxSq) h0 h1 lv _ g6 (fun s hs => (g3 s hs).1)
    (by rw [g7]; exact selMat_isometry f _ g4)
  rw [hu, hsq] at k1 k2
  have hstart : ∀ r, computeControlLaw svd N th maxSq false none none [lv] = .ok r →
      controlP (pdSettings svd N th maxSq ff dt) (pdFeat N hist target) gain beta sel s = .ok (r.1, r.2, [b'], e) := by
    intro r hr
    unfold controlP
    rw [hi.shown, numbers_nums, Outcome.bind_ok, herr, Outcome.bind_ok, Task.C14_single_feature, Outcome.bind_ok, Task.pdStep_eq, hpd,
      Outcome.bind_ok, hb]
    show (withVec N q _ sel b e _).bind _ = _
    rw [show withVec N q (pdFeat N hist target) sel b e _ = _ from g1]
    show (computeControlLaw svd N th maxSq false none none [lv]).map _ = _
    rw [hr]; rfl
  exact ⟨b', g2, fun h => hstart _ (k1 h), fun h => hstart _ (k2 h)⟩

open scoped Classical in
/-- One step of the loop. -/
theorem step_pd (hN : 6 ≤ N) (h0 : 0 ≤ th) (h1 : th < 1) (hh : ∃ r ∈ hist, r.1 < N) (ht : target.length = N)
    (hff : BaseNumbers ff dt) {d0 : Dev ℝ} (hm : d0.mode = .oneInteg) {s : PSt} {q : List ℝ} {p : Nat → ℝ} (hi : Inv N hist d0 s.st q)
    (hk : Keeps N hist target s.prev q p) :
    ∃ s' q', stepP (pdSettings svd N th maxSq ff dt) (pdFeat N hist target) gain beta sel s = .ok s' ∧ Inv N hist d0 s'.st q' ∧
      Keeps N hist target s'.prev q' (fun j => q.getD j 0 - target.getD j 0) ∧
      (normSq N hist sel (pdAsked target gain beta q p) ≤ maxSq → s'.st.reports = s.st.reports ++ [[]] ∧
        ∀ i, 6 ≤ i → i < N → Kept d0 i (if Moved hist sel i then q.getD i 0 + dt * pdAsked target gain beta q p i
          else q.getD i 0) (q'.getD i 0)) ∧
      (maxSq < normSq N hist sel (pdAsked target gain beta q p) → s'.st.reports = s.st.reports ++ [[0]] ∧
        ∀ i, 6 ≤ i → i < N → Kept d0 i (q.getD i 0) (q'.getD i 0)) := by
  obtain ⟨b, hb, c1, c2⟩ := control_pd svd N th maxSq ff hist target gain beta sel dt (by omega) h0 h1 hh ht hi hk
  have key : ∀ (u : Fin N → ℝ) (dis : List Nat),
      controlP (pdSettings svd N th maxSq ff dt) (pdFeat N hist target) gain beta sel s = .ok (u, dis, [b],
        (picked (wanted hist) N).map fun j => q.getD j 0 - target.getD j 0) →
      ∃ s' q', stepP (pdSettings svd N th maxSq ff dt) (pdFeat N hist target) gain beta sel s = .ok s' ∧ Inv N hist d0 s'.st q' ∧
        Keeps N hist target s'.prev q' (fun j => q.getD j 0 - target.getD j 0) ∧
        s'.st.reports = s.st.reports ++ [dis] ∧
        ∀ (i : Nat) (h : i < N), 6 ≤ i → Kept d0 i (q.getD i 0 + dt * u ⟨i, h⟩) (q'.getD i 0) := by
    intro u dis hc
    have hlen : (List.ofFn u).length = q.length := by simp [hi.size]
    obtain ⟨d', q', e1, e2, e3, e4, e5, e6, -, e8⟩ := device_step ff s.st.dev q (List.ofFn u) dt
      (by rw [hi.settings.2.1, hm]) hi.state (by omega) (fun _ => by have := hi.size; omega)
      (fun he i => by rw [hi.state]; exact hff q _ (by have := hi.size; omega) he i) hi.usable
    refine ⟨⟨⟨d', [b], s.st.reports ++ [dis]⟩, _⟩, q', ?_, ⟨hi.settings.trans e5, e6, e2, e3, by rw [e4, hi.size], b, rfl, hb⟩, .inl rfl,
      rfl, ?_⟩
    · unfold stepP
      rw [hc, Outcome.bind_ok]
      show (increment ff s.st.dev (List.ofFn fun i => some (u i)) dt).map _ = _
      rw [ofFn_nums, e1]; rfl
    · intro i h hi6
      have hiq : i < q.length := by rw [hi.size]; exact h
      obtain ⟨y, y1, y2⟩ := e8 i q[i] (u ⟨i, h⟩) (fun _ => hi6) (by
        rw [hlen, Nat.sub_self, Nat.zero_add, List.getElem?_eq_getElem hiq]) (by
        rw [List.getElem?_ofFn, dif_pos h])
      rw [hlen, Nat.sub_self, Nat.zero_add] at y1 y2
      have hq : q.getD i 0 = q[i] := by rw [List.getD, List.getElem?_eq_getElem hiq]; rfl
      have hy : q'.getD i 0 = y := by rw [List.getD, y1]; rfl
      rw [hq, hy]
      exact y2.settings hi.settings
  by_cases hs : normSq N hist sel (pdAsked target gain beta q p) ≤ maxSq
  · obtain ⟨s', q', k1, k2, k5, k3, k4⟩ := key _ _ (c1 hs)
    refine ⟨s', q', k1, k2, k5, fun _ => ⟨k3, fun i hi6 hiN => ?_⟩, fun h => absurd hs (not_le.mpr h)⟩
    have := k4 i hiN hi6
    by_cases hmv : Moved hist sel i
    · simpa [hmv] using this
    · simpa [hmv] using this
  · obtain ⟨s', q', k1, k2, k5, k3, k4⟩ := key _ _ (c2 (not_le.mp hs))
    refine ⟨s', q', k1, k2, k5, fun h => absurd h hs, fun _ => ⟨k3, fun i hi6 hiN => ?_⟩⟩
    have : Kept d0 i (q.getD i 0 + dt * 0) (q'.getD i 0) := k4 i hiN hi6
    rwa [mul_zero, add_zero] at this

end

end Verif.Loop
