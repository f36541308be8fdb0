import Verif.JointTraj.Props

/-!
# C156: the outputs of the joint trajectory entity

The entity has five outputs, that depend on the internal signal `OneStepOfUpdateS` and read it before they copy a member of the entity
(src/tools/joint-trajectory-entity.cpp:36-61, src/tools/joint-trajectory-entity.cpp:242-286). The internal signal depends on a signal that is always
ready (src/tools/joint-trajectory-entity.cpp:38-44, src/tools/joint-trajectory-entity.cpp:72-73). The signals are those of dynamic-graph, which is not
in the repository. What is assumed of it: such a signal calls its function when it is asked for at a date later than the one of its last
computation, or when it has no value; otherwise it answers its last value.
-/

namespace Verif.JointTraj

variable {F : Type}

/-- The output signals (src/tools/joint-trajectory-entity.cpp:45-61). -/
inductive Kind where
  | position
  | com
  | zmp
  | waist
  | seqid
  deriving DecidableEq, Repr

/-- A value of an output. -/
inductive Val (F : Type) where
  | pose (v : List (Option F))
  | vec (v : List F)
  | num (n : Nat)
  deriving DecidableEq, Repr

/-- The member that an output copies (src/tools/joint-trajectory-entity.cpp:242-286). -/
def Kind.of (o : Out F) : Kind → Val F
  | .position => .pose o.pose
  | .com => .vec o.com
  | .zmp => .vec o.cop
  | .waist => .vec o.waist
  | .seqid => .num o.seqid

/-- The entity with its signals: the date of the internal one, and the dates and values of the outputs
(src/tools/joint-trajectory-entity.cpp:36-61). -/
structure Ent (F : Type) where
  st : State F
  date : Option Int
  vals : Kind → Option (Int × Val F)

/-- A new entity (src/tools/joint-trajectory-entity.cpp:36-66). -/
def Ent.new : Ent F := ⟨.new, none, fun _ => none⟩

/-- A date is later than the one of the last computation, if any (dynamic-graph). -/
def later (t : Int) : Option Int → Bool
  | none => true
  | some d => decide (d < t)

/-- The command `initTraj` (src/tools/joint-trajectory-entity.cpp:300-307): it goes past the signals. -/
def Ent.init (h z : F) (e : Ent F) (a : Traj F) : Outcome (Ent F) :=
  (updateTrajectory h z e.st a).map fun st => { e with st := st }

/-- The internal signal is asked for at the date `t`, the input being `a` (src/tools/joint-trajectory-entity.cpp:41-44,
src/tools/joint-trajectory-entity.cpp:206-225). -/
def Ent.update (h z : F) (e : Ent F) (t : Int) (a : Traj F) : Outcome (Ent F) :=
  if later t e.date then (oneStep h z e.st a).map fun st => { e with st := st, date := some t } else .ok e

/-- An output is asked for at the date `t`, the input being `a` (src/tools/joint-trajectory-entity.cpp:242-286). -/
def Ent.ask (h z : F) (e : Ent F) (t : Int) (a : Traj F) (k : Kind) : Outcome (Val F × Ent F) :=
  match e.vals k with
  | some (d, v) => if later t (some d) then compute else .ok (v, e)
  | none => compute
where
  compute : Outcome (Val F × Ent F) :=
    (e.update h z t a).map fun e' => (k.of e'.st.out, { e' with vals := fun j => if j = k then some (t, k.of e'.st.out) else e'.vals j })

/-- What happens at a date: the input, and the outputs that are asked for, in this order. -/
structure Round (F : Type) where
  date : Int
  traj : Traj F
  asks : List Kind

/-- The answers to some readings. -/
def Ent.asks (h z : F) (t : Int) (a : Traj F) : Ent F → List Kind → Outcome (List (Val F) × Ent F)
  | e, [] => .ok ([], e)
  | e, k :: ks => (e.ask h z t a k).bind fun r => (Ent.asks h z t a r.2 ks).map fun q => (r.1 :: q.1, q.2)

/-- The answers along some dates. -/
def Ent.rounds (h z : F) : Ent F → List (Round F) → Outcome (List (List (Val F)))
  | _, [] => .ok []
  | e, r :: rs => (Ent.asks h z r.date r.traj e r.asks).bind fun q => (Ent.rounds h z q.2 rs).map (q.1 :: ·)

/-! ### Lemmas -/

/-- Nothing has been computed at the date `t` or later. -/
structure Ent.Before (e : Ent F) (t : Int) : Prop where
  date : ∀ d, e.date = some d → d < t
  vals : ∀ k d v, e.vals k = some (d, v) → d < t

/-- The internal signal has been computed at the date `t`, and the outputs computed at this date are the ones of the entity. -/
structure Ent.At (e : Ent F) (t : Int) : Prop where
  date : e.date = some t
  vals : ∀ k d v, e.vals k = some (d, v) → d < t ∨ d = t ∧ v = k.of e.st.out

theorem Ent.At.before {e : Ent F} {t t' : Int} (h : e.At t) (ht : t < t') : e.Before t' where
  date d hd := by rw [h.date] at hd; obtain rfl := Option.some.inj hd; exact ht
  vals k d v hv := by rcases h.vals k d v hv with h' | ⟨rfl, -⟩ <;> omega

theorem At.set {e : Ent F} {t : Int} (h : e.At t) (k : Kind) :
    Ent.At { e with vals := fun j => if j = k then some (t, k.of e.st.out) else e.vals j } t where
  date := h.date
  vals j d v hv := by
    simp only at hv
    split_ifs at hv with hj
    · obtain ⟨rfl, rfl⟩ := Prod.mk.inj (Option.some.inj hv)
      exact .inr ⟨rfl, by rw [hj]⟩
    · exact h.vals j d v hv

/-- A reading at the date of the internal signal. -/
theorem ask_at (h z : F) {e : Ent F} {t : Int} (he : e.At t) (a : Traj F) (k : Kind) :
    ∃ e', e.ask h z t a k = .ok (k.of e.st.out, e') ∧ e'.At t ∧ e'.st = e.st := by
  have hc : Ent.ask.compute h z e t a k = .ok (k.of e.st.out, { e with vals := fun j => if j = k then some (t, k.of e.st.out) else e.vals j }) := by
    simp [Ent.ask.compute, Ent.update, he.date, later, Outcome.map]
  unfold Ent.ask
  split
  · rename_i d v hv
    split_ifs with hl
    · exact ⟨_, hc, At.set he k, rfl⟩
    · rcases he.vals k d v hv with h' | ⟨-, rfl⟩
      · simp [later, h'] at hl
      · exact ⟨e, rfl, he, rfl⟩
  · exact ⟨_, hc, At.set he k, rfl⟩

theorem asks_at (h z : F) {e : Ent F} {t : Int} (he : e.At t) (a : Traj F) (ks : List Kind) :
    ∃ e', Ent.asks h z t a e ks = .ok (ks.map (Kind.of e.st.out), e') ∧ e'.At t ∧ e'.st = e.st := by
  induction ks generalizing e with
  | nil => exact ⟨e, rfl, he, rfl⟩
  | cons k ks ih =>
    obtain ⟨e1, a1, a2, a3⟩ := ask_at h z he a k
    obtain ⟨e2, b1, b2, b3⟩ := ih a2
    refine ⟨e2, ?_, b2, b3.trans a3⟩
    simp only [Ent.asks, a1, Outcome.bind, b1, Outcome.map, a3, List.map_cons]

/-- The first reading at a date. -/
theorem ask_before (h z : F) {e : Ent F} {t : Int} (he : e.Before t) (a : Traj F) (k : Kind) {st : State F} (hs : oneStep h z e.st a = .ok st) :
    ∃ e', e.ask h z t a k = .ok (k.of st.out, e') ∧ e'.At t ∧ e'.st = st := by
  have hl : later t e.date = true := by
    cases hd : e.date with
    | none => rfl
    | some d => simp [later, he.date d hd]
  have hc : Ent.ask.compute h z e t a k =
      .ok (k.of st.out, ⟨st, some t, fun j => if j = k then some (t, k.of st.out) else e.vals j⟩) := by
    simp [Ent.ask.compute, Ent.update, hl, hs, Outcome.map]
  have hat : Ent.At ⟨st, some t, fun j => if j = k then some (t, k.of st.out) else e.vals j⟩ t :=
    At.set (e := ⟨st, some t, e.vals⟩) ⟨rfl, fun j d v hv => .inl (he.vals j d v hv)⟩ k
  unfold Ent.ask
  split
  · rename_i d v hv
    rw [if_pos (by simp [later, he.vals k d v hv])]
    exact ⟨_, hc, hat, rfl⟩
  · exact ⟨_, hc, hat, rfl⟩

theorem asks_before (h z : F) {e : Ent F} {t : Int} (he : e.Before t) (a : Traj F) {ks : List Kind} (hk : ks ≠ []) {st : State F}
    (hs : oneStep h z e.st a = .ok st) :
    ∃ e', Ent.asks h z t a e ks = .ok (ks.map (Kind.of st.out), e') ∧ e'.At t ∧ e'.st = st := by
  cases ks with
  | nil => exact absurd rfl hk
  | cons k ks =>
    obtain ⟨e1, a1, a2, a3⟩ := ask_before h z he a k hs
    obtain ⟨e2, b1, b2, b3⟩ := asks_at h z a2 a ks
    refine ⟨e2, ?_, b2, b3.trans a3⟩
    simp only [Ent.asks, a1, Outcome.bind, b1, Outcome.map, a3, List.map_cons]

theorem rounds_run (h z : F) (rs : List (Round F)) (hd : rs.Pairwise fun a b => a.date < b.date) (ha : ∀ r ∈ rs, r.asks ≠ []) {e : Ent F}
    (he : ∀ r ∈ rs, e.Before r.date) {outs : List (Out F)} (hr : run h z e.st (rs.map fun r => .step r.traj) = .ok outs) :
    Ent.rounds h z e rs = .ok (List.zipWith (fun r o => r.asks.map (Kind.of o)) rs outs) := by
  induction rs generalizing e outs with
  | nil => rfl
  | cons r rs ih =>
    rw [List.pairwise_cons] at hd
    simp only [List.map_cons, run, step] at hr
    cases hs : oneStep h z e.st r.traj with
    | throw => rw [hs] at hr; cases hr
    | ub => rw [hs] at hr; cases hr
    | ok st =>
      rw [hs] at hr
      simp only [Outcome.bind] at hr
      cases hq : run h z st (rs.map fun r => .step r.traj) with
      | throw => rw [hq] at hr; cases hr
      | ub => rw [hq] at hr; cases hr
      | ok outs' =>
        rw [hq] at hr
        obtain rfl := Outcome.ok.inj hr
        obtain ⟨e', a1, a2, a3⟩ := asks_before h z (he r (by simp)) r.traj (ha r (by simp)) hs
        have := ih hd.2 (fun x hx => ha x (List.mem_cons_of_mem _ hx)) (e := e') (fun x hx => a2.before (hd.1 x hx)) (outs := outs')
          (by rw [a3]; exact hq)
        simp only [Ent.rounds, a1, Outcome.bind, this, Outcome.map, List.zipWith_cons_cons]

/-! ### Specification -/

/-- What the outputs show of a point with the number of its trajectory: the joints are the values before the last five, the centre of mass the next
three, the centre of pressure the last two with the height `z`; the waist is placed from the position and the heading of the centre of mass, at the
height `h`. -/
def Spec.shows (h z : F) (x : List F × Nat) : Kind → Val F
  | .position => .pose ((x.1.take (x.1.length - 5)).map some ++ List.replicate 5 none)
  | .com => .vec ((x.1.drop (x.1.length - 5)).take 3)
  | .zmp => .vec (x.1.drop (x.1.length - 2) ++ [z])
  | .waist => .vec ((x.1.drop (x.1.length - 5)).take 2 ++ [h] ++ (x.1.drop (x.1.length - 3)).take 1)
  | .seqid => .num x.2

/-- The points played. -/
def Spec.played : Spec.Player F → List (Traj F) → List (List F × Nat)
  | _, [] => []
  | q, a :: as => (Spec.step q a).current :: Spec.played (Spec.step q a) as

theorem run_played (h z : F) (q : Spec.Player F) (as : List (Traj F)) : Spec.run h z q as = (Spec.played q as).map (Spec.outOf h z) := by
  induction as generalizing q with
  | nil => rfl
  | cons a as ih => simp only [Spec.run, Spec.played, List.map_cons, ih]

theorem of_outOf (h z : F) (x : List F × Nat) : Kind.of (Spec.outOf h z x) = Spec.shows h z x := by
  funext k
  cases k <;> rfl

/-! ### Properties -/

/-- C156. A first trajectory is given by the command, then outputs are read, in any order and any number of times, at dates that increase. All
the readings of a date show one point: the one that the specification of C42 plays, with one step for each date. -/
theorem C156_coherent (h z : F) (a0 : Traj F) (rs : List (Round F)) (h0 : Spec.Good a0) (hg : ∀ r ∈ rs, Spec.Good r.traj)
    (hd : rs.Pairwise fun a b => a.date < b.date) (ha : ∀ r ∈ rs, r.asks ≠ []) :
    ∃ p ps, a0.points = p :: ps ∧
      (Ent.init h z Ent.new a0).bind (fun e => Ent.rounds h z e rs) =
        .ok (List.zipWith (fun r x => r.asks.map (Spec.shows h z x)) rs
          (Spec.played ⟨(p, a0.seq), ps.map (fun p => (p, a0.seq)), a0.stamp⟩ (rs.map Round.traj))) := by
  obtain ⟨p, ps, hp, hrun⟩ := C42_plays_in_order h z a0 (rs.map fun r => .step r.traj) h0 (by
    intro o ho
    simp only [List.mem_map] at ho
    obtain ⟨r, hr, rfl⟩ := ho
    exact hg r hr)
  refine ⟨p, ps, hp, ?_⟩
  simp only [run, step] at hrun
  cases hs : updateTrajectory h z State.new a0 with
  | throw => rw [hs] at hrun; cases hrun
  | ub => rw [hs] at hrun; cases hrun
  | ok st =>
    rw [hs] at hrun
    simp only [Outcome.bind] at hrun
    cases hq : run h z st (rs.map fun r => .step r.traj) with
    | throw => rw [hq] at hrun; cases hrun
    | ub => rw [hq] at hrun; cases hrun
    | ok outs =>
      rw [hq] at hrun
      obtain ⟨-, h2⟩ := List.cons.inj (Outcome.ok.inj hrun)
      have hi : Ent.init h z Ent.new a0 = .ok ⟨st, none, fun _ => none⟩ := by simp [Ent.init, Ent.new, hs, Outcome.map]
      rw [hi]
      simp only [Outcome.bind]
      rw [rounds_run h z rs hd ha (e := ⟨st, none, fun _ => none⟩) (fun r _ => ⟨by simp, by simp⟩) hq, h2, List.map_map, run_played, List.zipWith_map_right]
      simp only [of_outOf]
      rfl

/-- C156. Two readings of an output at a date answer the same, whatever is asked for in between at this date: the entity moves on at the first one
only. -/
theorem C156_once (h z : F) (e : Ent F) (t : Int) (he : e.Before t) (a b : Traj F) (k : Kind) (ks : List Kind) (st : State F)
    (hs : oneStep h z e.st a = .ok st) :
    ∃ e1 e2, Ent.asks h z t a e (k :: ks) = .ok ((k :: ks).map (Kind.of st.out), e1) ∧
      e1.ask h z t b k = .ok (k.of st.out, e2) ∧ e2.st = st := by
  obtain ⟨e1, a1, a2, a3⟩ := asks_before h z he a (List.cons_ne_nil k ks) hs
  obtain ⟨e2, b1, -, b3⟩ := ask_at h z a2 b k
  exact ⟨e1, e2, a1, by rw [b1, a3], b3.trans a3⟩

/-- C156. A date at which nothing is read is skipped: the entity does not move, and plays the next point at the next reading. -/
theorem C156_skip (h z : F) (e : Ent F) (r : Round F) (rs : List (Round F)) (hr : r.asks = []) :
    Ent.rounds h z e (r :: rs) = (Ent.rounds h z e rs).map ([] :: ·) := by
  simp only [Ent.rounds, hr, Ent.asks, Outcome.bind]

/-- C156, disagreement. The command moves the entity without its signals: when it comes between two readings of one date, the position is the one
of a point and the centre of mass the one of the next. -/
theorem C156_command_counterexample :
    ((Ent.init 0 0 (Ent.new : Ent Nat) ⟨(1, 0), 1, [[1, 1, 1, 1, 1, 1], [2, 2, 2, 2, 2, 2], [3, 3, 3, 3, 3, 3]]⟩).bind fun e =>
      (e.ask 0 0 5 ⟨(1, 0), 1, [[1, 1, 1, 1, 1, 1]]⟩ .position).bind fun p =>
      (p.2.init 0 0 ⟨(2, 0), 2, [[7, 7, 7, 7, 7, 7]]⟩).bind fun e =>
      (e.ask 0 0 5 ⟨(1, 0), 1, [[1, 1, 1, 1, 1, 1]]⟩ .com).map fun c => (p.1, c.1)) =
    .ok (.pose [some 2, none, none, none, none, none], .vec [3, 3, 3]) := by
  decide

/-- C156. The hypotheses are met, with two dates and three readings at each. -/
example : ∃ p ps, ([[1, 1, 1, 1, 1, 1], [2, 2, 2, 2, 2, 2]] : List (List Nat)) = p :: ps ∧
    (Ent.init 0 0 Ent.new ⟨(1, 0), 1, [[1, 1, 1, 1, 1, 1], [2, 2, 2, 2, 2, 2]]⟩).bind (fun e => Ent.rounds 0 0 e
      [⟨3, ⟨(1, 0), 1, [[1, 1, 1, 1, 1, 1]]⟩, [.position, .com, .position]⟩, ⟨7, ⟨(2, 0), 2, [[4, 4, 4, 4, 4, 4]]⟩, [.seqid, .zmp, .com]⟩]) =
      .ok [[.pose [some 2, none, none, none, none, none], .vec [2, 2, 2], .pose [some 2, none, none, none, none, none]],
        [.num 2, .vec [4, 4, 0], .vec [4, 4, 4]]] := by
  obtain ⟨p, ps, hp, h⟩ := C156_coherent (0 : Nat) 0 ⟨(1, 0), 1, [[1, 1, 1, 1, 1, 1], [2, 2, 2, 2, 2, 2]]⟩
    [⟨3, ⟨(1, 0), 1, [[1, 1, 1, 1, 1, 1]]⟩, [.position, .com, .position]⟩, ⟨7, ⟨(2, 0), 2, [[4, 4, 4, 4, 4, 4]]⟩, [.seqid, .zmp, .com]⟩]
    (by simp [Spec.Good]) (by simp [Spec.Good]) (by simp) (by simp)
  refine ⟨p, ps, hp, h.trans ?_⟩
  obtain ⟨rfl, rfl⟩ := List.cons.inj hp
  decide

end Verif.JointTraj
