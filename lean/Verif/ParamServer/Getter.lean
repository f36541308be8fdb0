import Verif.ParamServer.Tables

/-!
# The command that a server gets when it is initialised without the name of a robot (C138)

`init_simple` ends by adding the command `getJointsUrdfToSot` to the server, which reads a field of the robot of that time
(src/tools/parameter-server.cpp:235-239). Assumptions on dynamic-graph, which is not part of the repository: adding a command under a name in
use raises an exception, and so does calling a command that does not exist.
-/

namespace Verif.ParamServer

variable {E : Type} [DecidableEq E]

/-- The program, with the robot that the command `getJointsUrdfToSot` of each server reads, if the server has it. The robots are never
destroyed (src/tools/robot-utils.cpp:505, 539), so that the pointer kept by the command stays valid. -/
structure Program (E : Type) where
  world : World E
  getters : E → Option String

/-- The program at start. -/
def Program.new : Program E := ⟨World.new, fun _ => none⟩

/-- A command: those of `step`, and the end of `init_simple` (src/tools/parameter-server.cpp:235-239), reached when nothing was raised before. -/
def Program.step (p : Program E) (e : E) (c : Cmd) : Program E × Status :=
  let r := ParamServer.step p.world e c
  match c with
  | .initSimple dt =>
    if dt ≤ 0 then (⟨r.1, p.getters⟩, r.2)
    else match r.2 with
      | .done =>
        match p.getters e with
        | none => (⟨r.1, fun e' => if e' = e then (r.1.servers e).robot else p.getters e'⟩, .done)
        | some _ => (⟨r.1, p.getters⟩, .thrown)
      | s => (⟨r.1, p.getters⟩, s)
  | _ => (⟨r.1, p.getters⟩, r.2)

/-- Several commands; a command that raises an exception does not stop the program. -/
def Program.run (p : Program E) (l : List (E × Cmd)) : Program E := l.foldl (fun p c => (p.step c.1 c.2).1) p

/-- `getJointsUrdfToSot` (src/tools/parameter-server.cpp:235-239). -/
def Program.getJointsUrdfToSot (p : Program E) (e : E) : Outcome (List Rat) :=
  match p.getters e with
  | none => .throw
  | some n =>
    match findRobot n p.world.robots with
    | none => .ub
    | some r => .ok r.tables.mapping

theorem Program.getJoints_of {p : Program E} {e : E} {n : String} {r : Robot} (hg : p.getters e = some n)
    (hr : findRobot n p.world.robots = some r) : p.getJointsUrdfToSot e = .ok r.tables.mapping := by
  unfold Program.getJointsUrdfToSot
  simp only [hg, hr]

theorem Program.step_world (p : Program E) (e : E) (c : Cmd) : (p.step e c).1.world = (ParamServer.step p.world e c).1 := by
  unfold Program.step
  cases c with
  | initSimple dt =>
    dsimp only
    split_ifs
    · rfl
    · cases (ParamServer.step p.world e (.initSimple dt)).2 <;> dsimp only
      cases p.getters e <;> rfl
  | _ => rfl

theorem Program.run_world (p : Program E) (l : List (E × Cmd)) : (p.run l).world = ParamServer.run p.world l := by
  induction l generalizing p with
  | nil => rfl
  | cons c l ih =>
    show (Program.run (p.step c.1 c.2).1 l).world = _
    rw [ih, Program.step_world]
    rfl

/-- A getter stays as it is. -/
theorem Program.step_getter (p : Program E) (e e' : E) (c : Cmd) {n : String} (h : p.getters e = some n) : (p.step e' c).1.getters e = some n := by
  unfold Program.step
  cases c with
  | initSimple dt =>
    dsimp only
    split_ifs
    · exact h
    · cases (ParamServer.step p.world e' (.initSimple dt)).2 <;> dsimp only
      · cases hg : p.getters e' with
        | none =>
          dsimp only
          rw [if_neg (fun he : e = e' => by rw [he, hg] at h; simp at h)]
          exact h
        | some m => exact h
      · exact h
      · exact h
  | _ => exact h

theorem Program.run_getter (p : Program E) (e : E) (l : List (E × Cmd)) {n : String} (h : p.getters e = some n) : (p.run l).getters e = some n := by
  induction l generalizing p with
  | nil => exact h
  | cons c l ih => exact ih _ (p.step_getter e c.1 c.2 h)

/-- **C138.** Before such an initialisation of the server the command does not exist, whatever the servers do. -/
theorem C138_before (e : E) (l : List (E × Cmd)) (h : ∀ dt, (e, Cmd.initSimple dt) ∉ l) :
    ((Program.new : Program E).run l).getJointsUrdfToSot e = .throw := by
  have key : ∀ (l : List (E × Cmd)) (p : Program E), (∀ dt, (e, Cmd.initSimple dt) ∉ l) → p.getters e = none → (p.run l).getters e = none := by
    intro l
    induction l with
    | nil => exact fun p _ hp => hp
    | cons c l ih =>
      intro p hl hp
      refine ih _ (fun dt hdt => hl dt (List.mem_cons_of_mem _ hdt)) ?_
      obtain ⟨e', c⟩ := c
      unfold Program.step
      cases c with
      | initSimple dt =>
        have he : e ≠ e' := by
          rintro rfl
          exact hl dt List.mem_cons_self
        dsimp only
        split_ifs
        · exact hp
        · cases (ParamServer.step p.world e' (.initSimple dt)).2 <;> dsimp only
          · cases p.getters e' <;> dsimp only
            · rw [if_neg he]; exact hp
            · exact hp
          · exact hp
          · exact hp
      | _ => exact hp
  unfold Program.getJointsUrdfToSot
  rw [key l Program.new h rfl]

/-- **C138.** The first initialisation of a server without the name of a robot, in a program with one robot, succeeds; from then on its command
`getJointsUrdfToSot` answers the order of the joints of that robot, whatever the servers do. -/
theorem C138_first {p : Program E} {e : E} {dt : Rat} (hd : 0 < dt) {n : String} {r : Robot} (hr : p.world.robots = [(n, r)])
    (hg : p.getters e = none) (l : List (E × Cmd)) :
    (p.step e (.initSimple dt)).2 = .done ∧
      ∃ t, tablesOf ((p.step e (.initSimple dt)).1.run l).world n = some t ∧
        ((p.step e (.initSimple dt)).1.run l).getJointsUrdfToSot e = .ok t.mapping := by
  have hs : p.step e (.initSimple dt) =
      (⟨p.world.withServer e ⟨true, some n⟩, fun e' => if e' = e then some n else p.getters e'⟩, .done) := by
    simp [Program.step, ParamServer.step, not_le.2 hd, hr, hg, World.withServer]
  rw [hs]
  refine ⟨rfl, ?_⟩
  have ht : tablesOf (p.world.withServer e ⟨true, some n⟩) n = some r.tables := by
    simp [tablesOf, World.withServer, hr, findRobot]
  obtain ⟨t, h1, -⟩ := obs_run (fun _ => ()) n l ht (by intros; rfl)
  rw [Program.run_world]
  refine ⟨t, h1, ?_⟩
  have h2 := Program.run_getter ⟨p.world.withServer e ⟨true, some n⟩, fun e' => if e' = e then some n else p.getters e'⟩ e l (n := n) (by simp)
  rw [tablesOf, Option.map_eq_some_iff] at h1
  obtain ⟨r', h3, rfl⟩ := h1
  exact Program.getJoints_of h2 (by rw [Program.run_world]; exact h3)

/-- **C138.** As long as the server works for that robot, the order that it sets is the one that the command answers. -/
theorem C138_set_get {p : Program E} {e : E} {n : String} (hg : p.getters e = some n) (he : Bound p.world e n) {o : List Rat} {t t' : Tables}
    (ht : tablesOf p.world n = some t) (ho : (TableCmd.setJointsUrdfToSot o).apply t = .ok t') :
    (p.step e (.table (.setJointsUrdfToSot o))).2 = .done ∧
      (p.step e (.table (.setJointsUrdfToSot o))).1.getJointsUrdfToSot e = .ok o := by
  obtain ⟨h1, h2⟩ := tables_step he ht ho
  refine ⟨h1, ?_⟩
  have hm : t'.mapping = o := by
    simp only [TableCmd.apply, Outcome.map_eq_ok] at ho
    obtain ⟨j, -, rfl⟩ := ho
    rfl
  rw [tablesOf, Option.map_eq_some_iff] at h2
  obtain ⟨r, h3, h4⟩ := h2
  have h5 := Program.getJoints_of (p.step_getter e e (.table (.setJointsUrdfToSot o)) hg) (by rw [Program.step_world]; exact h3)
  rw [h5, h4, hm]

/-- **C138.** Counterexample: a second initialisation of the same kind raises an exception, after it took effect. -/
theorem C138_second_counterexample {p : Program E} {e : E} {dt : Rat} (hd : 0 < dt) {n m : String} {r : Robot} (hr : p.world.robots = [(n, r)])
    (hg : p.getters e = some m) :
    (p.step e (.initSimple dt)).2 = .thrown ∧ Bound (p.step e (.initSimple dt)).1.world e n := by
  have hs : p.step e (.initSimple dt) = (⟨p.world.withServer e ⟨true, some n⟩, p.getters⟩, .thrown) := by
    simp [Program.step, ParamServer.step, not_le.2 hd, hr, hg, World.withServer]
  rw [hs]
  exact ⟨rfl, by simp [Bound, World.withServer]⟩

/-- **C138.** Counterexample: when the server is then initialised for another robot, what it sets goes to that robot, and the command still
answers for the first one. -/
theorem C138_other_counterexample {p : Program E} {e : E} {dt : Rat} (hd : 0 < dt) {n m : String} (hm : m ≠ n) (hg : p.getters e = some n)
    {r : Robot} (hr : findRobot n p.world.robots = some r) (urdf : String) (o : List Rat) :
    let p1 := (p.step e (.init dt urdf m)).1
    Bound p1.world e m ∧ (p1.step e (.table (.setJointsUrdfToSot o))).1.getJointsUrdfToSot e = .ok r.tables.mapping := by
  intro p1
  have hb : Bound p1.world e m := by
    show Bound (p.step e _).1.world e m
    rw [Program.step_world]
    exact (C105_bound p.world e hd urdf m).1
  refine ⟨hb, ?_⟩
  have h1 : findRobot n p1.world.robots = some r := by
    show findRobot n (p.step e _).1.world.robots = some r
    rw [Program.step_world, (C105_init p.world e hd urdf m).2 n (Ne.symm hm), hr]
  have h2 : findRobot n (ParamServer.step p1.world e (.table (.setJointsUrdfToSot o))).1.robots = some r := by
    rw [Bound] at hb
    simp only [ParamServer.step, hb, Bool.true_eq_false, if_false]
    cases findRobot m p1.world.robots with
    | none => exact h1
    | some r' =>
      dsimp only
      cases (TableCmd.setJointsUrdfToSot o).apply r'.tables <;> dsimp only
      · rw [findRobot_onRobot, if_neg (Ne.symm hm), h1]
      · exact h1
      · exact h1
  exact Program.getJoints_of (p1.step_getter e e _ (p.step_getter e e _ hg)) (by rw [Program.step_world]; exact h2)

/-- A program with one robot: the second server, initialised without a name, answers the order set by the first one. -/
theorem C138_case : ((Program.new : Program (Fin 2)).run [(0, .init 1 "u" "r"), (1, .initSimple 1), (0, .table (.setJointsUrdfToSot [1, 0])),
    (0, .table (.setNameToId "j" 1))]).getJointsUrdfToSot 1 = .ok [1, 0] := by
  decide +kernel

end Verif.ParamServer
