import Verif.Loop.Posture
import Verif.Task.TaskProps

/-!
# The loop with a posture that moves, and the option of the derivative of the error

The posture and its velocity are signals, read at each step. The derivative of the error is subtracted from what the task asks for
when the option `withDerivative` of the task is set (src/task/task.cpp:86-90, 242-246). The rest of the loop is the one of
`Verif.Loop.Model`.
-/

namespace Verif.Loop

open Matrix Verif.Sot Verif.Features Verif.Device Filter Topology

/-- A task with one feature at one instant: the feature, the derivative of its error (src/task/task.cpp:223), the gain, the joints the
task controls and the option of the derivative (include/sot/core/task.hh:77-78). -/
structure DTask where
  feat : Feat
  dot : Outcome (List ℝ)
  gain : ℝ
  selec : Flags.Flags
  withDerivative : Bool

/-- The task at one step (src/task/task.cpp:148-313). The derivative of the error is read only with the option
(src/task/task.cpp:242-243). -/
noncomputable def evalDTask (n : Nat) (q : List ℝ) (t : DTask) (b : Buf) : Outcome (Sot.Level n × Buf) :=
  (t.feat.err q).bind fun e0 =>
  (Task.computeError b.err [e0]).bind fun e =>
  (if t.withDerivative then t.dot.map fun d => [d] else .ok []).bind fun ds =>
  (Task.computeTask t.gain t.withDerivative e ds).bind fun v =>
  (t.feat.jac q).bind fun J0 =>
  (Task.computeJacobian b.jac [J0]).bind fun J =>
  (level n t.selec b.mem v J).map fun lv => (lv, ⟨e, J, some (b.mem.getD (v.length, n))⟩)

/-- The control of a stack whose only task is `t` (src/sot/sot.cpp:524-548). The tasks of the parameters are not read. -/
noncomputable def controlD (P : Params) (t : DTask) (s : St) : Outcome ((Fin P.n → ℝ) × List Nat × List Buf) :=
  (numbers s.dev.stateSOUT).bind fun q =>
  (evalDTask P.n q t (s.bufs.headD .new)).bind fun lb =>
  (Sot.computeControlLaw P.svd P.n P.th P.maxSq false none none [lb.1]).map fun r => (r.1, r.2, [lb.2])

/-- One step (src/tools/device.cpp:414-476). -/
noncomputable def stepD (P : Params) (t : DTask) (s : St) : Outcome St :=
  (controlD P t s).bind fun c =>
  (Device.increment P.ff s.dev (List.ofFn fun i => some (c.1 i)) P.dt).map fun d => ⟨d, c.2.2, s.reports ++ [c.2.1]⟩

/-- Several steps: the task is what its signals give at each one. -/
noncomputable def stepsD (P : Params) (t : Nat → DTask) : Nat → St → Outcome St
  | 0, s => .ok s
  | k + 1, s => (stepsD P t k s).bind (stepD P (t k))

/-- What the signals of the posture give at an instant: the posture and its velocity
(include/sot/core/feature-posture.hh:73-75). -/
structure Ref where
  pos : List ℝ
  vel : List ℝ

/-- The task of a posture at an instant (src/feature/feature-posture.cpp:73-103). -/
def postureTask (p : Posture ℝ) (gain : ℝ) (sel : Flags.Flags) (wd : Bool) (r : Ref) : DTask where
  feat := postureFeat p r.pos
  dot := p.errorDot r.vel (List.replicate p.nb 0)
  gain := gain
  selec := sel
  withDerivative := wd

/-! ### One task -/

theorem evalDTask_single (n : Nat) (hn : 0 < n) (q : List ℝ) (t : DTask) (b : Buf) (e v : List ℝ) (ds : List (List ℝ))
    (J : Task.DMat ℝ) (he : t.feat.err q = .ok e) (hJ : t.feat.jac q = .ok J)
    (hd : (if t.withDerivative then t.dot.map fun d => [d] else .ok []) = .ok ds)
    (hv : ∃ w, Task.computeTask t.gain t.withDerivative e ds = .ok w ∧ Task.Singles w v) (hvl : v.length = e.length)
    (hr : J.rows = e.length) (hc : J.cols = n)
    (hs : ∀ i < e.length, ∀ j < n, J.at_ i j ≠ none) (hb : Good n e.length b) :
    ∃ (lv : Level n) (b' : Buf), evalDTask n q t b = .ok (lv, b') ∧ Good n e.length b' ∧ lv.m = e.length ∧ lv.selec = some t.selec ∧
      (∀ s, lv.mem = some s → lv.m ≤ s.1 ∧ n ≤ s.2) ∧ Requests lv (fun i => v.getD i.val 0) ∧
      ∀ (i : Fin lv.m) (j : Fin n), J.at_ i.val j.val = some (lv.jac i j) := by
  obtain ⟨J', hJ', hst⟩ : ∃ J', Task.computeJacobian b.jac [J] = .ok J' ∧ Task.IsStack J' [J] n := by
    rcases hb.1 with h | h
    · exact Task.C15_stack_partial b.jac [J] n hn h (by simp) (by simpa using hc)
    · exact Task.C15_stack_fresh_partial b.jac [J] n hn h (by simp) (by simpa using hc)
  obtain ⟨s1, s2, s3⟩ := hst
  have hrows : Task.totalRows [J] = e.length := by simp [Task.totalRows, hr]
  rw [hrows] at s1 s3
  have s4 : ∀ i j, i < e.length → j < n → J'.at_ i j = J.at_ i j := by
    intro i j hi hj
    rw [s3 i j hi hj, Task.stackAt, if_pos (by omega)]
  obtain ⟨w, hw1, hw2, hw3⟩ := hv
  have htl : w.length = e.length := by rw [hw2, hvl]
  have hcond : J'.rows = w.length ∧ J'.cols = n ∧ ∀ i < w.length, ∀ j < n, J'.at_ i j ≠ none := by
    refine ⟨by rw [s1, htl], s2, fun i hi j hj => ?_⟩
    rw [s4 i j (by omega) hj]
    exact hs i (by omega) j hj
  refine ⟨⟨w.length, Matrix.of fun i j => (J'.at_ i.val j.val).getD 0, some t.selec, fun i => w[i], false, b.mem⟩,
    ⟨e, J', some (b.mem.getD (w.length, n))⟩, ?_, ⟨.inl s2, ?_⟩, htl, rfl, ?_, ?_, ?_⟩
  · simp only [evalDTask, he, hJ, hd, hw1, Outcome.bind_ok, Task.C14_single_feature, hJ', level, if_pos hcond]
    rfl
  · rintro s h
    simp only [Option.some.injEq] at h
    subst h
    cases hm : b.mem with
    | none => simp [htl]
    | some s => exact hb.2 s hm
  · intro s h
    obtain ⟨h1, h2⟩ := hb.2 s h
    exact ⟨by show w.length ≤ _; omega, h2⟩
  · intro i
    have hi : i.val < w.length := i.isLt
    obtain ⟨x1, x2⟩ := hw3 i.val hi (by omega)
    simp only [MultiBound.getMode] at x1
    refine ⟨x1, ?_⟩
    simp only [MultiBound.getSingleBound, x1, if_true, ne_eq, not_true, if_false, Outcome.ok.injEq] at x2
    show (w[i.val]'hi).boundSingle = v.getD i.val 0
    rw [List.getD, List.getElem?_eq_getElem (by omega)]
    exact x2
  · intro i j
    have hi : i.val < e.length := by have := i.isLt; simp only at this; omega
    have h1 := hs i.val hi j.val j.isLt
    simp only [Matrix.of_apply]
    rw [s4 i.val j.val hi j.isLt]
    cases hx : J.at_ i.val j.val with
    | none => exact absurd hx h1
    | some x => rfl

/-- What the task asks of the joint `j`: the error times the opposite of the gain, and with the option the velocity of the posture. -/
noncomputable def asked (gain : ℝ) (wd : Bool) (r : Ref) (q : List ℝ) (j : Nat) : ℝ :=
  -gain * (q.getD j 0 - r.pos.getD j 0) + (if wd then r.vel.getD j 0 else 0)

theorem moving_level (N : Nat) (hN : 0 < N) (hist : List (Nat × Bool)) (hh : ∃ r ∈ hist, r.1 < N) (q : List ℝ) (r : Ref)
    (hq : q.length = N) (ht : r.pos.length = N) (wd : Bool) (hv : wd = true → r.vel.length = N) (g : ℝ) (sel : Flags.Flags) (b : Buf)
    (hb : Good N (picked (wanted hist) N).length b) :
    ∃ (lv : Level N) (b' : Buf) (f : Fin lv.m → Fin N),
      evalDTask N q (postureTask ((Posture.new : Posture ℝ).requests N hist) g sel wd r) b = .ok (lv, b') ∧
      Good N (picked (wanted hist) N).length b' ∧ (∀ s, lv.mem = some s → lv.m ≤ s.1 ∧ N ≤ s.2) ∧
      Function.Injective f ∧ (∀ j : Fin N, (∃ i, f i = j) ↔ wanted hist j.val = true) ∧
      Requests lv (fun i => asked g wd r q (f i).val) ∧
      effJac lv = selMat f (fun j => Flags.call sel ((j.val : ℕ) : Int) = .ok true) := by
  set p := (Posture.new : Posture ℝ).requests N hist with hp
  obtain ⟨p1, p2, p3, p4⟩ := C51_history (F := ℝ) N hist
  rw [← hp] at p1 p2 p3 p4
  have hpc := requests_jacCols N hist hh
  rw [← hp] at hpc
  have hal : p.active.length = N := p4 (by rintro rfl; simp at hh)
  set idx := picked (wanted hist) N with hidx
  have hpick : picked (fun i => p.active.getD i false) p.active.length = idx := by
    rw [hal, hidx]
    apply List.filter_congr
    intro i hi
    exact p1 i (List.mem_range.mp hi)
  have hmem : ∀ k ∈ idx, k < N := fun k hk => by
    rw [hidx] at hk
    exact List.mem_range.mp (List.mem_filter.mp hk).1
  have hnd : idx.Nodup := by rw [hidx]; exact List.Nodup.filter _ List.nodup_range
  set e : List ℝ := idx.map fun i => q.getD i 0 - r.pos.getD i 0 with hedef
  have hel : e.length = idx.length := by simp [hedef]
  have herr : (postureFeat p r.pos).err q = .ok e := by
    show p.error q r.pos (List.replicate p.nb 0) = _
    rw [C51_error p q r.pos _ (by omega) (by omega) (by rw [hpick, List.length_replicate, p3]), hpick]
  have hget : ∀ (i : Nat) (hi : i < idx.length) (j : Nat), j < N →
      ((p.jac[i]?).bind fun r => r[j]?) = some (if j = idx[i] then (1 : ℝ) else 0) := by
    intro i hi j hj
    rw [p2, List.getElem?_map, List.getElem?_eq_getElem hi]
    simp [unitRow, hj]
  set v : List ℝ := idx.map fun i => asked g wd r q i with hvdef
  obtain ⟨ds, hd, hw⟩ : ∃ ds, (if wd then (p.errorDot r.vel (List.replicate p.nb 0)).map fun d => [d] else .ok []) = .ok ds ∧
      ∃ w, Task.computeTask g wd e ds = .ok w ∧ Task.Singles w v := by
    cases wd with
    | false =>
      refine ⟨[], rfl, ?_⟩
      obtain ⟨w, w1, w2⟩ := Task.C16_proportional g e []
      refine ⟨w, w1, ?_⟩
      have : v = e.map fun x => -(g * x) := by
        rw [hvdef, hedef, List.map_map]
        apply List.map_congr_left
        intro i _
        simp only [asked, Function.comp, Bool.false_eq_true, if_false]
        ring
      rwa [this]
    | true =>
      have hdot := C51_error_dot p r.vel (List.replicate p.nb 0) (by rw [hal, hv rfl]) (by rw [hpick, List.length_replicate, p3])
      rw [hpick] at hdot
      refine ⟨[idx.map fun i => -r.vel.getD i 0], by rw [if_pos rfl, hdot]; rfl, ?_⟩
      obtain ⟨w, w1, w2⟩ := Task.C16_with_derivative g e [idx.map fun i => -r.vel.getD i 0] (by simp [hel])
      refine ⟨w, w1, ?_⟩
      have : v = List.zipWith (fun e d => -(g * e) - d) e [idx.map fun i => -r.vel.getD i 0].flatten := by
        rw [hvdef, hedef, List.flatten_singleton, List.zipWith_map_left, List.zipWith_map_right, List.zipWith_self]
        apply List.map_congr_left
        intro i _
        simp only [asked, if_true]
        ring
      rwa [this]
  obtain ⟨lv, b', h1, h2, h3, h4, h6, h7, h8⟩ := evalDTask_single N hN q (postureTask p g sel wd r) b e v ds
    ⟨p.jac.length, p.jacCols, fun i j => (p.jac[i]?).bind fun r => r[j]?⟩ herr rfl hd hw (by simp [hvdef, hel])
    (by simp [p2, hel]) hpc (by
      intro i hi j hj
      have := hget i (by omega) j hj
      exact fun h => by rw [show ((p.jac[i]?).bind fun r => r[j]?) = none from h] at this; cases this) (by rw [hel]; exact hb)
  have hlt : ∀ i : Fin lv.m, i.val < idx.length := fun i => by have := i.isLt; omega
  refine ⟨lv, b', fun i => ⟨idx[i.val]'(hlt i), hmem _ (List.getElem_mem _)⟩, h1, by rw [hel] at h2; exact h2, h6, ?_, ?_, ?_, ?_⟩
  · intro i k hik
    simp only [Fin.mk.injEq] at hik
    exact Fin.ext ((List.Nodup.getElem_inj_iff hnd).mp hik)
  · intro j
    constructor
    · rintro ⟨i, rfl⟩
      have : ∀ k ∈ idx, wanted hist k = true := fun k hk => by
        rw [hidx] at hk
        exact (List.mem_filter.mp hk).2
      exact this _ (List.getElem_mem _)
    · intro hw
      have : j.val ∈ idx := by
        rw [hidx]; exact List.mem_filter.mpr ⟨List.mem_range.mpr j.isLt, hw⟩
      obtain ⟨i, hi, hij⟩ := List.getElem_of_mem this
      exact ⟨⟨i, by omega⟩, Fin.ext hij⟩
  · intro i
    obtain ⟨r1, r2⟩ := h7 i
    refine ⟨r1, r2.trans ?_⟩
    show v.getD i.val 0 = _
    rw [hvdef, List.getD, List.getElem?_map, List.getElem?_eq_getElem (hlt i)]; rfl
  · classical
    ext i j
    have h9 : ((p.jac[i.val]?).bind fun r => r[j.val]?) = some (lv.jac i j) := h8 i j
    rw [hget i.val (hlt i) j.val j.isLt] at h9
    simp only [Option.some.injEq] at h9
    simp only [effJac, h4, postureTask, selMat, Matrix.of_apply, ← h9, Fin.ext_iff]
    by_cases ha : j.val = idx[i.val]'(hlt i) <;> by_cases hb : Flags.call sel ((j.val : ℕ) : Int) = .ok true <;> simp [ha, hb]

/-! ### One step -/

section
variable (svd : ∀ {m c : ℕ} (A : Matrix (Fin m) (Fin c) ℝ), Svd A) (N : Nat) (th maxSq : ℝ)
    (ff : List (Option ℝ) → List (Option ℝ) → ℝ → (Fin 6 → Option ℝ)) (hist : List (Nat × Bool)) (gain : ℝ)
    (sel : Flags.Flags) (wd : Bool) (dt : ℝ)

/-- The settings of the loop: the ones of the stack and of the device. -/
noncomputable def settings : Params where
  svd := svd
  n := N
  th := th
  maxSq := maxSq
  ff := ff
  tasks := []
  dt := dt

/-- The task of the joints asked by `hist`. -/
def movingTask (r : Ref) : DTask := postureTask ((Posture.new : Posture ℝ).requests N hist) gain sel wd r

open scoped Classical in
/-- The square of the norm of the velocity that the task asks for. -/
noncomputable def askedSq (r : Ref) (q : List ℝ) : ℝ :=
  ∑ j : Fin N, if Moved hist sel j.val then (asked gain wd r q j.val) ^ 2 else 0

open scoped Classical in
theorem control_moving (hN : 0 < N) (h0 : 0 ≤ th) (h1 : th < 1) (hh : ∃ r ∈ hist, r.1 < N) {r : Ref} (ht : r.pos.length = N)
    (hv : wd = true → r.vel.length = N) {d0 : Dev ℝ} {s : St} {q : List ℝ} (hi : Inv N hist d0 s q) :
    ∃ b, Good N (picked (wanted hist) N).length b ∧
      (askedSq N hist gain sel wd r q ≤ maxSq →
        controlD (settings svd N th maxSq ff dt) (movingTask N hist gain sel wd r) s =
          .ok (fun j => if Moved hist sel j.val then asked gain wd r q j.val else 0, [], [b])) ∧
      (maxSq < askedSq N hist gain sel wd r q →
        controlD (settings svd N th maxSq ff dt) (movingTask N hist gain sel wd r) s = .ok (0, [0], [b])) := by
  obtain ⟨b, hb, hgood⟩ := hi.buf
  obtain ⟨lv, b', f, g1, g2, g3, g4, g5, g6, g7⟩ := moving_level N hN hist hh q r hi.size ht wd hv gain sel b hgood
  have hu : (effJac lv)ᵀ *ᵥ (fun i => asked gain wd r q (f i).val) =
      fun j => if Moved hist sel j.val then asked gain wd r q j.val else 0 := by
    funext j
    rw [g7, selMat_transpose_mulVec f _ g4 _ (fun j => asked gain wd r q j.val) (fun i => rfl) j]
    have hiff : ((∃ i, f i = j) ∧ Flags.call sel ((j.val : ℕ) : Int) = .ok true) ↔ Moved hist sel j.val := by rw [g5 j]; rfl
    exact if_congr hiff rfl rfl
  have hsq : (fun j : Fin N => if Moved hist sel j.val then asked gain wd r q j.val else 0) ⬝ᵥ
      (fun j : Fin N => if Moved hist sel j.val then asked gain wd r q j.val else 0) = askedSq N hist gain sel wd r q := by
    unfold dotProduct askedSq
    apply Finset.sum_congr rfl
    intro j _
    by_cases hmv : Moved hist sel j.val
    · simp only [hmv, if_true]; ring
    · simp only [hmv, if_false]; ring
  obtain ⟨k1, k2⟩ := single_level svd (th := th) (maxSq := maxSq) h0 h1 lv _ g6 (fun s hs => (g3 s hs).1)
    (by rw [g7]; exact selMat_isometry f _ g4)
  rw [hu, hsq] at k1 k2
  have hev : evalDTask N q (movingTask N hist gain sel wd r) (s.bufs.headD .new) = .ok (lv, b') := by
    rw [hb]; exact g1
  refine ⟨b', g2, fun h => ?_, fun h => ?_⟩
  · unfold controlD
    rw [hi.shown, numbers_nums, Outcome.bind_ok]
    show (evalDTask N q _ _).bind _ = _
    rw [hev]
    show (computeControlLaw svd N th maxSq false none none [lv]).map _ = _
    rw [k1 h]; rfl
  · unfold controlD
    rw [hi.shown, numbers_nums, Outcome.bind_ok]
    show (evalDTask N q _ _).bind _ = _
    rw [hev]
    show (computeControlLaw svd N th maxSq false none none [lv]).map _ = _
    rw [k2 h]; rfl

open scoped Classical in
/-- One step of the loop. -/
theorem step_moving (hN : 6 ≤ N) (h0 : 0 ≤ th) (h1 : th < 1) (hh : ∃ r ∈ hist, r.1 < N) {r : Ref} (ht : r.pos.length = N)
    (hv : wd = true → r.vel.length = N)
    (hff : BaseNumbers ff dt) {d0 : Dev ℝ} (hm : d0.mode = .oneInteg) {s : St} {q : List ℝ} (hi : Inv N hist d0 s q) :
    ∃ s' q', stepD (settings svd N th maxSq ff dt) (movingTask N hist gain sel wd r) s = .ok s' ∧ Inv N hist d0 s' q' ∧
      (askedSq N hist gain sel wd r q ≤ maxSq → s'.reports = s.reports ++ [[]] ∧
        ∀ i, 6 ≤ i → i < N → Kept d0 i (if Moved hist sel i then q.getD i 0 + dt * asked gain wd r q i
          else q.getD i 0) (q'.getD i 0)) ∧
      (maxSq < askedSq N hist gain sel wd r q → s'.reports = s.reports ++ [[0]] ∧
        ∀ i, 6 ≤ i → i < N → Kept d0 i (q.getD i 0) (q'.getD i 0)) := by
  obtain ⟨b, hb, c1, c2⟩ := control_moving svd N th maxSq ff hist gain sel wd dt (by omega) h0 h1 hh ht hv hi
  have key : ∀ (u : Fin N → ℝ) (dis : List Nat),
      controlD (settings svd N th maxSq ff dt) (movingTask N hist gain sel wd r) s = .ok (u, dis, [b]) →
      ∃ s' q', stepD (settings svd N th maxSq ff dt) (movingTask N hist gain sel wd r) s = .ok s' ∧ Inv N hist d0 s' q' ∧
        s'.reports = s.reports ++ [dis] ∧
        ∀ (i : Nat) (h : i < N), 6 ≤ i → Kept d0 i (q.getD i 0 + dt * u ⟨i, h⟩) (q'.getD i 0) := by
    intro u dis hc
    have hlen : (List.ofFn u).length = q.length := by simp [hi.size]
    obtain ⟨d', q', e1, e2, e3, e4, e5, e6, -, e8⟩ := device_step ff s.dev q (List.ofFn u) dt
      (by rw [hi.settings.2.1, hm]) hi.state (by omega) (fun _ => by have := hi.size; omega)
      (fun he i => by rw [hi.state]; exact hff q _ (by have := hi.size; omega) he i) hi.usable
    refine ⟨⟨d', [b], s.reports ++ [dis]⟩, q', ?_, ⟨hi.settings.trans e5, e6, e2, e3, by rw [e4, hi.size], b, rfl, hb⟩, rfl, ?_⟩
    · unfold stepD
      rw [hc, Outcome.bind_ok]
      show (increment ff s.dev (List.ofFn fun i => some (u i)) dt).map _ = _
      rw [ofFn_nums, e1]; rfl
    · intro i h hi6
      have hiq : i < q.length := by rw [hi.size]; exact h
      obtain ⟨y, y1, y2⟩ := e8 i q[i] (u ⟨i, h⟩) (fun _ => hi6) (by
        rw [hlen, Nat.sub_self, Nat.zero_add, List.getElem?_eq_getElem hiq]) (by
        rw [List.getElem?_ofFn, dif_pos h])
      rw [hlen, Nat.sub_self, Nat.zero_add] at y1 y2
      have hq : q.getD i 0 = q[i] := by rw [List.getD, List.getElem?_eq_getElem hiq]; rfl
      have hy : q'.getD i 0 = y := by rw [List.getD, y1]; rfl
      rw [hq, hy]
      exact y2.settings hi.settings
  by_cases hs : askedSq N hist gain sel wd r q ≤ maxSq
  · obtain ⟨s', q', k1, k2, k3, k4⟩ := key _ _ (c1 hs)
    refine ⟨s', q', k1, k2, fun _ => ⟨k3, fun i hi6 hiN => ?_⟩, fun h => absurd hs (not_le.mpr h)⟩
    have := k4 i hiN hi6
    by_cases hmv : Moved hist sel i
    · simpa [hmv] using this
    · simpa [hmv] using this
  · obtain ⟨s', q', k1, k2, k3, k4⟩ := key _ _ (c2 (not_le.mp hs))
    refine ⟨s', q', k1, k2, fun h => absurd h hs, fun _ => ⟨k3, fun i hi6 hiN => ?_⟩⟩
    have : Kept d0 i (q.getD i 0 + dt * 0) (q'.getD i 0) := k4 i hiN hi6
    rwa [mul_zero, add_zero] at this

end

end Verif.Loop
