import Verif.JointTraj.Spec
import Mathlib.Tactic.FinCases
import Mathlib.Tactic.NormNum
import Mathlib.Tactic.Ring
import Mathlib.Analysis.SpecialFunctions.Trigonometric.Basic

/-!
# Property C42: joint trajectories are played in arrival order
-/
set_option linter.unusedSimpArgs false

namespace Verif.JointTraj

variable {F : Type}

/-- The entries of the posture after the joint positions were never written. -/
def PoseOk (pose : List (Option F)) : Prop := pose = [] ∨ (5 ≤ pose.length ∧ pose.drop (pose.length - 5) = List.replicate 5 none)

theorem updatePoint_ok (h z : F) (o : Out F) (p : List F) (hp : 5 ≤ p.length) (ho : PoseOk o.pose) :
    updatePoint h z o p = .ok (Spec.outOf h z (p, o.seqid)) := by
  have hn : p.length ≠ 0 := by omega
  have hn5 : ¬ p.length < 5 := by omega
  simp only [updatePoint, if_neg hn, if_neg hn5]
  rw [rd_of_lt p (p.length - 5) (by omega), rd_of_lt p (p.length - 4) (by omega), rd_of_lt p (p.length - 3) (by omega),
    rd_of_lt p (p.length - 2) (by omega), rd_of_lt p (p.length - 1) (by omega)]
  simp only [Outcome.bind_ok, Outcome.map_ok, Outcome.ok.injEq, Spec.outOf, Out.mk.injEq, and_true]
  have hpose : (resizePose o.pose p.length).drop (p.length - 5) = List.replicate 5 none := by
    unfold resizePose
    split
    · rename_i he
      rcases ho with h0 | ⟨_, h1⟩
      · rw [h0] at he; simp at he; omega
      · rw [← he]; exact h1
    · rw [List.drop_replicate]
      congr 1
      omega
  have d5 : p.drop (p.length - 5) = p[p.length - 5] :: p[p.length - 4] :: p[p.length - 3] :: p[p.length - 2] ::
      p[p.length - 1] :: [] := by
    rw [List.drop_eq_getElem_cons (by omega), List.drop_eq_getElem_cons (by omega),
      List.drop_eq_getElem_cons (by omega), List.drop_eq_getElem_cons (by omega), List.drop_eq_getElem_cons (by omega),
      List.drop_eq_nil_of_le (by omega)]
    congr 2 <;> first | (congr 1; omega) | skip
    congr 2 <;> first | (congr 1; omega) | skip
    congr 2 <;> first | (congr 1; omega) | skip
  have d3 : p.drop (p.length - 3) = p[p.length - 3] :: p[p.length - 2] :: p[p.length - 1] :: [] := by
    have : p.drop (p.length - 3) = (p.drop (p.length - 5)).drop 2 := by
      rw [List.drop_drop]; congr 1; omega
    rw [this, d5]; rfl
  have d2 : p.drop (p.length - 2) = p[p.length - 2] :: p[p.length - 1] :: [] := by
    have : p.drop (p.length - 2) = (p.drop (p.length - 5)).drop 3 := by
      rw [List.drop_drop]; congr 1; omega
    rw [this, d5]; rfl
  refine ⟨by rw [hpose], by rw [d5]; rfl, by rw [d2]; rfl, by rw [d5, d3]; rfl⟩

theorem poseOk_outOf (h z : F) (p : List F × Nat) (hp : 5 ≤ p.1.length) : PoseOk (Spec.outOf h z p).pose := by
  right
  have hl : ((p.1.take (p.1.length - 5)).map some : List (Option F)).length = p.1.length - 5 := by simp
  simp only [Spec.outOf, List.length_append, hl, List.length_replicate]
  refine ⟨by omega, ?_⟩
  rw [List.drop_append_of_le_length (by rw [hl]; omega)]
  rw [List.drop_eq_nil_of_le (by rw [hl]; omega)]
  rfl

/-- The link between the entity and the specification. -/
structure Rel (h z : F) (s : State F) (q : Spec.Player F) : Prop where
  ex : ∃ f rest, s.deque = f :: rest ∧ (∃ hi : s.index < f.points.length, q.current = (f.points[s.index], f.seq)) ∧
    q.pending = (f.points.drop (s.index + 1)).map (fun p => (p, f.seq)) ++ rest.flatMap Spec.tagged
  stamp : s.deque.getLast?.map Traj.stamp = some q.lastStamp
  good : ∀ a ∈ s.deque, Spec.Good a
  out : s.out = Spec.outOf h z q.current

theorem emit_ok (h z : F) (k : Out F → State F) (g : Traj F) (o : Out F) (i : Nat) (hi : i < g.points.length)
    (hg : Spec.Good g) (ho : PoseOk o.pose) :
    ((rd g.points i).bind fun p => (updatePoint h z { o with seqid := g.seq } p).map k) =
      .ok (k (Spec.outOf h z (g.points[i], g.seq))) := by
  rw [rd_of_lt _ _ hi, Outcome.bind_ok,
    updatePoint_ok h z { o with seqid := g.seq } _ (hg.2 _ (List.getElem_mem hi)) ho]
  rfl

theorem rel_step (h z : F) (s : State F) (q : Spec.Player F) (a : Traj F) (ha : Spec.Good a) (hr : Rel h z s q) :
    ∃ s', updateTrajectory h z s a = .ok s' ∧ Rel h z s' (Spec.step q a) := by
  obtain ⟨⟨f, rest, hd, ⟨hi, hc⟩, hp⟩, hst, hgood, hout⟩ := hr
  have hfg : Spec.Good f := hgood f (by rw [hd]; simp)
  have hpo : PoseOk s.out.pose := by
    rw [hout, hc]
    exact poseOk_outOf h z _ (hfg.2 _ (List.getElem_mem hi))
  -- the queueing
  have henq : ∃ rest' st', enqueue s a = { s with index := s.index + 1, deque := f :: rest' } ∧
      (if Spec.isNew q a then q.pending ++ Spec.tagged a else q.pending) =
        (f.points.drop (s.index + 1)).map (fun p => (p, f.seq)) ++ rest'.flatMap Spec.tagged ∧
      (if Spec.isNew q a then a.stamp else q.lastStamp) = st' ∧
      (f :: rest').getLast?.map Traj.stamp = some st' ∧ (∀ b ∈ f :: rest', Spec.Good b) := by
    have hlast : ∃ b, s.deque.getLast? = some b ∧ b.stamp = q.lastStamp := by
      cases hg : s.deque.getLast? with
      | none => rw [hg] at hst; simp at hst
      | some b => rw [hg] at hst; simp at hst; exact ⟨b, rfl, hst⟩
    obtain ⟨b, hb, hbs⟩ := hlast
    by_cases h0 : a.stamp = (0, 0)
    · refine ⟨rest, q.lastStamp, ?_, ?_, ?_, ?_, ?_⟩
      · simp only [enqueue, h0, hd, List.length_cons, true_and]
        rw [if_pos (by omega)]
      · simp [Spec.isNew, h0, hp]
      · simp [Spec.isNew, h0]
      · rw [← hd]; exact hst
      · rw [← hd]; exact hgood
    · have h0' : ¬ ((0, 0) = a.stamp ∧ s.deque.length ≠ 0) := fun h => h0 h.1.symm
      by_cases h1 : a.stamp = q.lastStamp
      · refine ⟨rest, q.lastStamp, ?_, ?_, ?_, ?_, ?_⟩
        · simp only [enqueue, if_neg h0', hb, hbs.trans h1.symm, if_true]
          rw [hd]
        · simp [Spec.isNew, h1, hp]
        · simp [Spec.isNew, h1]
        · rw [← hd]; exact hst
        · rw [← hd]; exact hgood
      · have h1' : ¬ (b.stamp = a.stamp) := fun h => h1 (by rw [← h, hbs])
        refine ⟨rest ++ [a], a.stamp, ?_, ?_, ?_, ?_, ?_⟩
        · simp only [enqueue, if_neg h0', hb, if_neg h1']
          rw [hd]; rfl
        · simp [Spec.isNew, h0, h1, hp, Spec.tagged]
        · simp [Spec.isNew, h0, h1]
        · rw [← List.cons_append, List.getLast?_append]; simp
        · intro c hc'
          simp only [List.mem_cons, List.mem_append, List.not_mem_nil, or_false] at hc'
          rcases hc' with rfl | hc' | rfl
          · exact hfg
          · exact hgood c (by rw [hd]; simp [hc'])
          · exact ha
  obtain ⟨rest', st', he, hpend, hstamp, hlast', hgood'⟩ := henq
  have hspec : Spec.step q a =
      (match (f.points.drop (s.index + 1)).map (fun p => (p, f.seq)) ++ rest'.flatMap Spec.tagged with
      | [] => ⟨q.current, [], st'⟩
      | p :: ps => ⟨p, ps, st'⟩) := by
    simp only [Spec.step, hpend, hstamp]
    rfl
  rw [updateTrajectory, he, hspec]
  simp only [advance]
  by_cases hlt : s.index + 1 < f.points.length
  · rw [if_neg (by omega)]
    rw [emit_ok h z _ f s.out (s.index + 1) hlt hfg hpo]
    refine ⟨_, rfl, ?_⟩
    rw [List.drop_eq_getElem_cons hlt]
    simp only [List.map_cons, List.cons_append]
    exact ⟨⟨f, rest', rfl, ⟨hlt, rfl⟩, rfl⟩, hlast', hgood', rfl⟩
  · rw [if_pos (by omega)]
    rw [List.drop_eq_nil_of_le (by omega)]
    cases rest' with
    | nil =>
      have hne : ¬ (f.points.length = 0) := by omega
      simp only [List.length_nil, Nat.lt_irrefl, if_false, Nat.zero_add, if_neg hne, gt_iff_lt]
      rw [if_pos ⟨by omega, trivial⟩]
      rw [emit_ok h z _ f s.out (f.points.length - 1) (by omega) hfg hpo]
      refine ⟨_, rfl, ?_⟩
      simp only [List.map_nil, List.flatMap_nil, List.append_nil]
      have hidx : f.points.length - 1 = s.index := by omega
      refine ⟨⟨f, [], rfl, ⟨by show f.points.length - 1 < _; omega, ?_⟩, ?_⟩, hlast', hgood', ?_⟩
      · simp only [hidx]; exact hc
      · simp only [List.flatMap_nil, List.append_nil]
        rw [List.drop_eq_nil_of_le (by omega)]; rfl
      · simp only [hidx]; rw [hc]
    | cons g rest'' =>
      have hgg : Spec.Good g := hgood' g (by simp)
      have hgl : 0 < g.points.length := List.length_pos_of_ne_nil hgg.1
      have hne : ¬ (g.points.length = 0) := by omega
      rw [if_pos (by simp)]
      simp only [if_neg hne]
      rw [if_neg (by simp)]
      rw [emit_ok h z _ g s.out 0 hgl hgg hpo]
      refine ⟨_, rfl, ?_⟩
      have htag : (g :: rest'').flatMap Spec.tagged = (g.points[0], g.seq) ::
          ((g.points.drop 1).map (fun p => (p, g.seq)) ++ rest''.flatMap Spec.tagged) := by
        rw [List.flatMap_cons, Spec.tagged]
        conv_lhs => rw [← List.drop_zero (l := g.points), List.drop_eq_getElem_cons hgl]
        rfl
      rw [htag]
      simp only [List.map_nil, List.nil_append]
      refine ⟨⟨g, rest'', rfl, ⟨hgl, rfl⟩, rfl⟩, ?_, fun b hb => hgood' b (List.mem_cons_of_mem _ hb), rfl⟩
      rw [List.getLast?_cons_cons] at hlast'
      exact hlast'

theorem run_spec (h z : F) (as : List (Traj F)) (has : ∀ a ∈ as, Spec.Good a) (s : State F) (q : Spec.Player F)
    (hr : Rel h z s q) (ops : List (Op F)) (hops : ops.map (fun | .init a => a | .step a => a) = as) :
    run h z s ops = .ok (Spec.run h z q as) := by
  induction as generalizing s q ops with
  | nil =>
    simp only [List.map_eq_nil_iff] at hops
    subst hops
    rfl
  | cons a as ih =>
    cases ops with
    | nil => simp at hops
    | cons o ops =>
      simp only [List.map_cons, List.cons.injEq] at hops
      obtain ⟨ho, hops⟩ := hops
      obtain ⟨s', he, hr'⟩ := rel_step h z s q a (has a (by simp)) hr
      have hstep : step h z s o = .ok s' := by
        cases o with
        | init b => simp only at ho; subst ho; exact he
        | step b =>
          simp only at ho; subst ho
          obtain ⟨f, rest, hd, -⟩ := hr.ex
          simp only [step, oneStep, hd]
          exact he
      rw [run, hstep, Outcome.bind_ok, ih (fun b hb => has b (List.mem_cons_of_mem _ hb)) s' _ hr' ops hops]
      rw [Spec.run, Outcome.map_ok, hr'.out]

/-- The trajectory an operation brings. -/
def Op.traj : Op F → Traj F
  | .init a => a
  | .step a => a

/-- C42. Once a first trajectory is given by the command, along every history of commands and evaluations the entity plays
like the specification: trajectories in the order received, one point per evaluation, none skipped or repeated, the last
point held. No read is out of range. All the trajectories have points and their points at least five values. -/
theorem C42_plays_in_order (h z : F) (a0 : Traj F) (ops : List (Op F)) (h0 : Spec.Good a0)
    (hops : ∀ o ∈ ops, Spec.Good o.traj) :
    ∃ p ps, a0.points = p :: ps ∧
      run h z State.new (.init a0 :: ops) =
        .ok (Spec.outOf h z (p, a0.seq) ::
          Spec.run h z ⟨(p, a0.seq), ps.map (fun p => (p, a0.seq)), a0.stamp⟩ (ops.map Op.traj)) := by
  obtain ⟨hne, hlen⟩ := h0
  obtain ⟨p, ps, hp⟩ : ∃ p ps, a0.points = p :: ps := by
    cases hpt : a0.points with
    | nil => exact absurd hpt hne
    | cons p ps => exact ⟨p, ps, rfl⟩
  refine ⟨p, ps, hp, ?_⟩
  have hp5 : 5 ≤ p.length := hlen p (by rw [hp]; simp)
  have henq : enqueue State.new a0 = { (State.new : State F) with index := 0, deque := [a0] } := by
    simp [enqueue, State.new]
  have hstep : step h z State.new (.init a0) =
      .ok { (State.new : State F) with index := 0, deque := [a0], out := Spec.outOf h z (p, a0.seq) } := by
    have hl : ¬ (0 ≥ a0.points.length) := by rw [hp]; simp
    simp only [step, updateTrajectory, henq, advance, if_neg hl]
    have := emit_ok h z (fun o => { (State.new : State F) with index := 0, deque := [a0], out := o }) a0 (State.new : State F).out 0
      (by rw [hp]; simp) ⟨hne, hlen⟩ (.inl rfl)
    rw [this]
    simp [hp]
  rw [run, hstep, Outcome.bind_ok]
  rw [run_spec h z (ops.map Op.traj) (fun a ha => by
      simp only [List.mem_map] at ha
      obtain ⟨o, ho, rfl⟩ := ha
      exact hops o ho) _ ⟨(p, a0.seq), ps.map (fun p => (p, a0.seq)), a0.stamp⟩ ?_ ops rfl]
  · rfl
  · refine ⟨⟨a0, [], rfl, ⟨by rw [hp]; simp, by simp [hp]⟩, by simp [hp]⟩, rfl, ?_, rfl⟩
    intro a ha
    simp only [List.mem_singleton] at ha
    subst ha
    exact ⟨hne, hlen⟩

theorem spec_hold (h z : F) (q : Spec.Player F) (as : List (Traj F)) (hsame : ∀ a ∈ as, Spec.isNew q a = false)
    (k : Nat) (hk : k < as.length) :
    (Spec.run h z q as)[k]? = some (Spec.outOf h z ((q.current :: q.pending)[min (k + 1) q.pending.length]'(by
      rw [List.length_cons]; omega))) := by
  induction as generalizing q k with
  | nil => simp at hk
  | cons a as ih =>
    have hn := hsame a (by simp)
    have hstamp : (Spec.step q a).lastStamp = q.lastStamp := by
      simp only [Spec.step, hn, Bool.false_eq_true, if_false]
      split <;> rfl
    have hsame' : ∀ b ∈ as, Spec.isNew (Spec.step q a) b = false := by
      intro b hb
      have := hsame b (List.mem_cons_of_mem _ hb)
      simp only [Spec.isNew, hstamp]
      exact this
    rw [Spec.run]
    obtain ⟨cur, pending, st⟩ := q
    cases pending with
    | nil =>
      have hs : Spec.step ⟨cur, [], st⟩ a = ⟨cur, [], st⟩ := by
        simp only [Spec.step, hn, Bool.false_eq_true, if_false]
      cases k with
      | zero => simp [hs]
      | succ k =>
        rw [List.getElem?_cons_succ, ih _ hsame' k (by simpa using hk)]
        simp [hs]
    | cons p ps =>
      have hs : Spec.step ⟨cur, p :: ps, st⟩ a = ⟨p, ps, st⟩ := by
        simp only [Spec.step, hn, Bool.false_eq_true, if_false]
      cases k with
      | zero => simp [hs]
      | succ k =>
        rw [List.getElem?_cons_succ, ih _ hsame' k (by simpa using hk)]
        simp only [hs, Option.some.injEq]
        congr 1
        simp only [List.length_cons]
        have : min (k + 1 + 1) (ps.length + 1) = min (k + 1) ps.length + 1 := by omega
        simp only [this, List.getElem_cons_succ]

/-- C42 (a single trajectory). While the input keeps the stamp of the first trajectory, the evaluation of rank `k`
publishes its point of rank `k + 1`, and the last point for ever after. -/
theorem C42_single_trajectory (h z : F) (a0 : Traj F) (as : List (Traj F)) (h0 : Spec.Good a0)
    (has : ∀ a ∈ as, Spec.Good a ∧ a.stamp = a0.stamp) (k : Nat) (hk : k < as.length) :
    ∃ outs pt, run h z State.new (.init a0 :: as.map .step) = .ok outs ∧
      a0.points[min (k + 1) (a0.points.length - 1)]? = some pt ∧
      outs[k + 1]? = some (Spec.outOf h z (pt, a0.seq)) := by
  obtain ⟨p, ps, hp, hrun⟩ := C42_plays_in_order h z a0 (as.map .step) h0 (by
    intro o ho
    simp only [List.mem_map] at ho
    obtain ⟨a, ha, rfl⟩ := ho
    exact (has a ha).1)
  have hmap : (as.map Op.step).map Op.traj = as := by
    rw [List.map_map]
    exact List.map_id' as
  rw [hmap] at hrun
  have hlen : min (k + 1) (a0.points.length - 1) < a0.points.length := by rw [hp]; simp
  refine ⟨_, a0.points[min (k + 1) (a0.points.length - 1)], hrun, List.getElem?_eq_getElem hlen, ?_⟩
  rw [List.getElem?_cons_succ, spec_hold h z _ as (by
    intro a ha
    simp [Spec.isNew, (has a ha).2]) k hk]
  simp only [Option.some.injEq]
  congr 1
  have hc : ((p, a0.seq) :: ps.map fun p => (p, a0.seq)) = a0.points.map fun p => (p, a0.seq) := by rw [hp]; rfl
  simp only [hc, List.getElem_map, hp, List.length_cons, Nat.add_sub_cancel, List.length_map]

/-- C42, disagreement. Evaluating the outputs before the command gave a first trajectory reads the front of an empty
queue. -/
theorem C42_no_init_counterexample (h z : F) (a : Traj F) : step h z State.new (.step a) = .ub := rfl

/-- C42, disagreement. A point with one to four values makes the unsigned bound wrap around: out-of-range writes. -/
theorem C42_short_point_counterexample (h z : F) (p : List F) (h1 : 0 < p.length) (h2 : p.length < 5) (t : Nat × Nat)
    (n : Nat) : step h z State.new (.init ⟨t, n, [p]⟩) = .ub := by
  have : p ≠ [] := by rintro rfl; simp at h1
  simp [step, updateTrajectory, enqueue, State.new, advance, updatePoint, this, h2]

/-- C42, disagreement. A trajectory stamped `(0, 0)` is never queued when another is there, and a trajectory received again
after another one is played again. -/
theorem C42_stamps_counterexample :
    run 0 0 (State.new : State Nat)
      ([⟨(1, 0), 1, [[1, 1, 1, 1, 1]]⟩, ⟨(0, 0), 2, [[2, 2, 2, 2, 2]]⟩, ⟨(3, 0), 3, [[3, 3, 3, 3, 3]]⟩,
        ⟨(1, 0), 1, [[1, 1, 1, 1, 1]]⟩].map .init) =
      .ok ([(1, 1), (1, 1), (3, 3), (1, 1)].map fun p => Spec.outOf 0 0 (List.replicate 5 p.1, p.2)) := by decide

/-- C42, disagreement. The waist is not placed at the given position: the translation is rotated with the frame. -/
theorem C42_waist_position (x y z θ : ℝ) :
    (xyzTheta x y z θ).t = ![Real.cos θ * x - Real.sin θ * y, Real.sin θ * x + Real.cos θ * y, z] := by
  funext i
  fin_cases i <;> simp [xyzTheta, Geometry.Pose.mul, Matrix.mulVec, dotProduct, Fin.sum_univ_three] <;> ring

/-- With the heading `π` the waist ends at the opposite of the requested position. -/
theorem C42_waist_counterexample : (xyzTheta 1 0 (65 / 100) Real.pi).t 0 = -1 := by
  rw [C42_waist_position]
  simp

/-- The hypotheses are met by two trajectories of two and one points of six values. -/
example : Spec.Good (⟨(1, 0), 1, [[1, 2, 3, 4, 5, 6], [7, 8, 9, 10, 11, 12]]⟩ : Traj Nat) ∧
    Spec.Good (⟨(2, 0), 2, [[0, 0, 0, 0, 0, 1]]⟩ : Traj Nat) ∧
    run 0 0 (State.new : State Nat)
      [.init ⟨(1, 0), 1, [[1, 2, 3, 4, 5, 6], [7, 8, 9, 10, 11, 12]]⟩, .step ⟨(2, 0), 2, [[0, 0, 0, 0, 0, 1]]⟩,
       .step ⟨(2, 0), 2, [[0, 0, 0, 0, 0, 1]]⟩, .step ⟨(2, 0), 2, [[0, 0, 0, 0, 0, 1]]⟩] =
      .ok [Spec.outOf 0 0 ([1, 2, 3, 4, 5, 6], 1), Spec.outOf 0 0 ([7, 8, 9, 10, 11, 12], 1),
           Spec.outOf 0 0 ([0, 0, 0, 0, 0, 1], 2), Spec.outOf 0 0 ([0, 0, 0, 0, 0, 1], 2)] := by
  refine ⟨⟨by decide, by decide⟩, ⟨by decide, by decide⟩, by decide⟩

end Verif.JointTraj
