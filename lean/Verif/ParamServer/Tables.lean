import Verif.ParamServer.Props
import Verif.RobotUtils.Joints
import Verif.RobotUtils.Names
import Verif.RobotUtils.Tables

/-!
# Properties of the tables of a robot that the servers fill (C127)
-/

namespace Verif.ParamServer

open SMap

variable {E : Type} [DecidableEq E]

/-! ### Numbers given for identifiers -/

/-- The integer `k` is the integer part of `x`, towards zero. -/
def IsIndex (x : Rat) (k : Int) : Prop := (0 ≤ x → (k : Rat) ≤ x ∧ x < k + 1) ∧ (x < 0 → (k : Rat) - 1 < x ∧ x ≤ k)

/-- A signed integer of 64 bits. -/
def Fits (k : Int) : Prop := -2 ^ 63 ≤ k ∧ k < 2 ^ 63

instance (k : Int) : Decidable (Fits k) := by unfold Fits; infer_instance

theorem isIndex_trunc (x : Rat) : IsIndex x (if x < 0 then -⌊-x⌋ else ⌊x⌋) := by
  constructor
  · intro h
    rw [if_neg (not_lt.2 h)]
    exact ⟨Int.floor_le x, Int.lt_floor_add_one x⟩
  · intro h
    rw [if_pos h]
    have h1 := Int.floor_le (-x)
    have h2 := Int.lt_floor_add_one (-x)
    push_cast
    constructor <;> linarith

theorem IsIndex.unique {x : Rat} {k k' : Int} (h : IsIndex x k) (h' : IsIndex x k') : k = k' := by
  rcases le_or_gt 0 x with hx | hx
  · obtain ⟨a, b⟩ := h.1 hx
    obtain ⟨a', b'⟩ := h'.1 hx
    have h1 : (k : Rat) < k' + 1 := lt_of_le_of_lt a b'
    have h2 : (k' : Rat) < k + 1 := lt_of_le_of_lt a' b
    have h1 : k < k' + 1 := by exact_mod_cast h1
    have h2 : k' < k + 1 := by exact_mod_cast h2
    omega
  · obtain ⟨a, b⟩ := h.2 hx
    obtain ⟨a', b'⟩ := h'.2 hx
    have h1 : (k : Rat) - 1 < k' := lt_of_lt_of_le a b'
    have h2 : (k' : Rat) - 1 < k := lt_of_lt_of_le a' b
    have h1 : k - 1 < k' := by exact_mod_cast h1
    have h2 : k' - 1 < k := by exact_mod_cast h2
    omega

/-- The conversion gives the integer part when it fits. -/
theorem toIndex_eq {x : Rat} {k : Int} (h : IsIndex x k) : toIndex x = if Fits k then .ok k else .ub := by
  have hk := (isIndex_trunc x).unique h
  simp only [toIndex, hk, Fits]
  norm_num

theorem toIndex_ok {x : Rat} {k : Int} : toIndex x = .ok k ↔ IsIndex x k ∧ Fits k := by
  constructor
  · intro h
    rw [toIndex_eq (isIndex_trunc x)] at h
    generalize hz : (if x < 0 then -⌊-x⌋ else ⌊x⌋) = z at h
    split_ifs at h with hf
    simp only [Outcome.ok.injEq] at h
    exact ⟨h ▸ hz ▸ isIndex_trunc x, h ▸ hf⟩
  · rintro ⟨h, hf⟩
    rw [toIndex_eq h, if_pos hf]

/-! ### Commands on a bound server -/

/-- The tables of a robot. -/
def tablesOf (w : World E) (n : String) : Option Tables := (findRobot n w.robots).map Robot.tables

theorem tables_step {w : World E} {e : E} {n : String} (he : Bound w e n) {t t' : Tables} (ht : tablesOf w n = some t) {c : TableCmd}
    (hc : c.apply t = .ok t') : (step w e (.table c)).2 = .done ∧ tablesOf (step w e (.table c)).1 n = some t' := by
  rw [Bound] at he
  rw [tablesOf, Option.map_eq_some_iff] at ht
  obtain ⟨r, hr, rfl⟩ := ht
  simp [step, he, hr, hc, tablesOf, findRobot_onRobot]

/-- What any command does to the tables of a robot: nothing, or what one command of the tables does; a robot that did not exist has the tables
of a new one. -/
theorem tables_any {w : World E} (e : E) (c : Cmd) (n : String) {t : Tables} (ht : tablesOf w n = some t) :
    tablesOf (step w e c).1 n = some t ∨ ∃ c', c = .table c' ∧ ∃ t', c'.apply t = .ok t' ∧ tablesOf (step w e c).1 n = some t' := by
  rw [tablesOf, Option.map_eq_some_iff] at ht
  obtain ⟨r, hr, rfl⟩ := ht
  have hsame : ∀ m (f : Robot → Robot), (∀ r, (f r).tables = r.tables) → ∀ l, findRobot n l = some r →
      (findRobot n (onRobot m f l)).map Robot.tables = some r.tables := by
    intro m f hf l hl
    rw [findRobot_onRobot]
    split_ifs with h
    · subst h
      simp [hl, hf]
    · simp [hl]
  have hg : ∀ f : Robot → Robot, (∀ r, (f r).tables = r.tables) → tablesOf (w.guarded e f).1 n = some r.tables := by
    intro f hf
    rw [World.guarded]
    split_ifs
    · simp [tablesOf, hr]
    · cases (w.servers e).robot with
      | none => simp [tablesOf, hr]
      | some m => exact hsame m f hf _ hr
  have h0 : tablesOf w n = some r.tables := by simp [tablesOf, hr]
  cases c with
  | init dt urdf m =>
    left
    simp only [step]
    split_ifs
    · exact h0
    · refine hsame m _ (by intro; rfl) _ ?_
      rw [findRobot_ensure]
      split_ifs with hnm
      · subst hnm
        simp [hr]
      · exact hr
  | initSimple dt =>
    left
    simp only [step]
    split_ifs
    · exact h0
    · split <;> exact h0
  | setParameter name text =>
    left
    simp only [step]
    split_ifs
    · exact h0
    · cases (w.servers e).robot with
      | none => exact h0
      | some m =>
        simp only
        cases findRobot m w.robots with
        | none => exact h0
        | some r' =>
          simp only
          cases putParameter name text r'.tree with
          | none => exact h0
          | some t => exact hsame m _ (by intro; rfl) _ hr
  | setImuJointName x => exact Or.inl (hg _ fun _ => rfl)
  | setFootFrameName x y => exact Or.inl (hg _ fun _ => by split_ifs <;> rfl)
  | setHandFrameName x y => exact Or.inl (hg _ fun _ => by split_ifs <;> rfl)
  | setRightFootSoleXYZ x => exact Or.inl (hg _ fun _ => rfl)
  | setRightFootForceSensorXYZ x => exact Or.inl (hg _ fun _ => rfl)
  | displayRobotUtil =>
    left
    simp only [step]
    cases (w.servers e).robot <;> exact h0
  | table c =>
    simp only [step]
    split_ifs
    · exact Or.inl h0
    · cases (w.servers e).robot with
      | none => exact Or.inl h0
      | some m =>
        simp only
        cases hm : findRobot m w.robots with
        | none => exact Or.inl h0
        | some r' =>
          simp only
          cases hc : c.apply r'.tables with
          | throw => exact Or.inl h0
          | ub => exact Or.inl h0
          | ok t =>
            by_cases hnm : n = m
            · subst hnm
              rw [hr] at hm
              cases hm
              exact Or.inr ⟨c, rfl, t, hc, by simp [tablesOf, findRobot_onRobot, hr]⟩
            · exact Or.inl (by simp [tablesOf, findRobot_onRobot, hr, hnm])

/-- Something read in the tables stays as long as no command that changes it is given. -/
theorem obs_run {α : Type} (obs : Tables → α) (n : String) (l : List (E × Cmd)) {w : World E} {t : Tables} (ht : tablesOf w n = some t)
    (hl : ∀ c, (∃ e, (e, Cmd.table c) ∈ l) → ∀ t t', c.apply t = .ok t' → obs t' = obs t) :
    ∃ t', tablesOf (run w l) n = some t' ∧ obs t' = obs t := by
  induction l generalizing w t with
  | nil => exact ⟨t, ht, rfl⟩
  | cons c l ih =>
    have hl' : ∀ c, (∃ e, (e, Cmd.table c) ∈ l) → ∀ t t', c.apply t = .ok t' → obs t' = obs t :=
      fun c ⟨e, h⟩ => hl c ⟨e, List.mem_cons_of_mem _ h⟩
    rcases tables_any c.1 c.2 n ht with h | ⟨c', hc, t', ht', h⟩
    · exact ih h hl'
    · obtain ⟨t'', h1, h2⟩ := ih h hl'
      exact ⟨t'', h1, h2.trans (hl c' ⟨c.1, by rw [← hc]; exact List.mem_cons_self⟩ t t' ht')⟩

/-! ### The properties -/

/-- **C127.** An identifier is the integer part of the number given, towards zero: the command is accepted when it fits in a signed integer of
64 bits, and undefined otherwise. -/
theorem C127_accepted {w : World E} (hw : Sound w) {e : E} {n : String} (he : Bound w e n) {x : Rat} {k : Int} (hk : IsIndex x k)
    (name : String) (lo up : Rat) (flo fup : List Rat) :
    (step w e (.table (.setNameToId name x))).2 = (if Fits k then .done else .ub) ∧
      (step w e (.table (.setJointLimitsFromId x lo up))).2 = (if Fits k then .done else .ub) ∧
      (step w e (.table (.setForceLimitsFromId x flo fup))).2 = (if Fits k then .done else .ub) ∧
      (step w e (.table (.setForceNameToForceId name x))).2 = (if Fits k then .done else .ub) := by
  obtain ⟨r, hr⟩ := Option.ne_none_iff_exists'.1 (hw e n (by rw [he]))
  rw [Bound] at he
  by_cases hf : Fits k <;> simp [step, he, hr, TableCmd.apply, toIndex_eq hk, hf, Outcome.map]

/-- **C127.** Before the initialisation the tables are not changed. -/
theorem C127_before {w : World E} {e : E} (h : (w.servers e).init = false) (c : TableCmd) : step w e (.table c) = (w, .done) := by
  simp [step, h]

/-- **C127.** The limits set for a joint by a server of the robot are the limits of that joint, after any commands of any servers that do not
set the limits of an identifier with the same integer part. -/
theorem C127_joint_limits {w : World E} (hw : Sound w) {e : E} {n : String} (he : Bound w e n) {x : Rat} {k : Int} (hk : IsIndex x k)
    (hf : Fits k) (lo up : Rat) (l : List (E × Cmd))
    (hl : ∀ e' y lo' up', (e', Cmd.table (.setJointLimitsFromId y lo' up')) ∈ l → ¬IsIndex y k) :
    ∃ t, tablesOf (run (step w e (.table (.setJointLimitsFromId x lo up))).1 l) n = some t ∧ t.limitsOf k = (lo, up) := by
  obtain ⟨r, hr⟩ := Option.ne_none_iff_exists'.1 (hw e n (by rw [he]))
  have h1 := (tables_step (c := .setJointLimitsFromId x lo up) he (t := r.tables) (by simp [tablesOf, hr])
    (by rw [TableCmd.apply, toIndex_ok.2 ⟨hk, hf⟩]; rfl)).2
  obtain ⟨t', h2, h3⟩ := obs_run (fun t => t.limitsOf k) n l h1 (by
    rintro c ⟨e', hc⟩ t t' ht
    cases c with
    | setJointLimitsFromId y lo' up' =>
      simp only [TableCmd.apply, Outcome.map_eq_ok] at ht
      obtain ⟨k', h1, rfl⟩ := ht
      have hne : k ≠ k' := fun h => hl e' y lo' up' hc (h ▸ (toIndex_ok.1 h1).1)
      simp [Tables.limitsOf, find_put, hne]
    | setNameToId name y => simp only [TableCmd.apply, Outcome.map_eq_ok] at ht; obtain ⟨k', h1, rfl⟩ := ht; rfl
    | setForceLimitsFromId y lo' up' => simp only [TableCmd.apply, Outcome.map_eq_ok] at ht; obtain ⟨k', h1, rfl⟩ := ht; rfl
    | setForceNameToForceId name y => simp only [TableCmd.apply, Outcome.map_eq_ok] at ht; obtain ⟨k', h1, rfl⟩ := ht; rfl
    | setJointsUrdfToSot o => simp only [TableCmd.apply, Outcome.map_eq_ok] at ht; obtain ⟨k', h1, rfl⟩ := ht; rfl)
  exact ⟨t', h2, by rw [h3]; simp [Tables.limitsOf, find_put]⟩

/-- **C127.** Likewise for the limits of a force sensor, whatever the sizes of the vectors given. -/
theorem C127_force_limits {w : World E} (hw : Sound w) {e : E} {n : String} (he : Bound w e n) {x : Rat} {k : Int} (hk : IsIndex x k)
    (hf : Fits k) (lo up : List Rat) (l : List (E × Cmd))
    (hl : ∀ e' y lo' up', (e', Cmd.table (.setForceLimitsFromId y lo' up')) ∈ l → ¬IsIndex y k) :
    ∃ t, tablesOf (run (step w e (.table (.setForceLimitsFromId x lo up))).1 l) n = some t ∧ t.forceLimitsOf k = (lo, up) := by
  obtain ⟨r, hr⟩ := Option.ne_none_iff_exists'.1 (hw e n (by rw [he]))
  have h1 := (tables_step (c := .setForceLimitsFromId x lo up) he (t := r.tables) (by simp [tablesOf, hr])
    (by rw [TableCmd.apply, toIndex_ok.2 ⟨hk, hf⟩]; rfl)).2
  obtain ⟨t', h2, h3⟩ := obs_run (fun t => t.forceLimitsOf k) n l h1 (by
    rintro c ⟨e', hc⟩ t t' ht
    cases c with
    | setForceLimitsFromId y lo' up' =>
      simp only [TableCmd.apply, Outcome.map_eq_ok] at ht
      obtain ⟨k', h1, rfl⟩ := ht
      have hne : k ≠ k' := fun h => hl e' y lo' up' hc (h ▸ (toIndex_ok.1 h1).1)
      simp [Tables.forceLimitsOf, find_put, hne]
    | setNameToId name y => simp only [TableCmd.apply, Outcome.map_eq_ok] at ht; obtain ⟨k', h1, rfl⟩ := ht; rfl
    | setJointLimitsFromId y lo' up' => simp only [TableCmd.apply, Outcome.map_eq_ok] at ht; obtain ⟨k', h1, rfl⟩ := ht; rfl
    | setForceNameToForceId name y => simp only [TableCmd.apply, Outcome.map_eq_ok] at ht; obtain ⟨k', h1, rfl⟩ := ht; rfl
    | setJointsUrdfToSot o => simp only [TableCmd.apply, Outcome.map_eq_ok] at ht; obtain ⟨k', h1, rfl⟩ := ht; rfl)
  exact ⟨t', h2, by rw [h3]; simp [Tables.forceLimitsOf, find_put]⟩

/-- **C127.** The identifier given to the name of a joint is the one read for this name, after any commands of any servers that do not give
another identifier to the same name. -/
theorem C127_joint_id {w : World E} (hw : Sound w) {e : E} {n : String} (he : Bound w e n) {x : Rat} {k : Int} (hk : IsIndex x k)
    (hf : Fits k) (name : String) (l : List (E × Cmd)) (hl : ∀ e' y, (e', Cmd.table (.setNameToId name y)) ∉ l) :
    ∃ t, tablesOf (run (step w e (.table (.setNameToId name x))).1 l) n = some t ∧ RobotUtils.getId t.names name = k := by
  obtain ⟨r, hr⟩ := Option.ne_none_iff_exists'.1 (hw e n (by rw [he]))
  have h1 := (tables_step (c := .setNameToId name x) he (t := r.tables) (by simp [tablesOf, hr])
    (by rw [TableCmd.apply, toIndex_ok.2 ⟨hk, hf⟩]; rfl)).2
  obtain ⟨t', h2, h3⟩ := obs_run (fun t => RobotUtils.getId t.names name) n l h1 (by
    rintro c ⟨e', hc⟩ t t' ht
    cases c with
    | setNameToId name' y =>
      simp only [TableCmd.apply, Outcome.map_eq_ok] at ht
      obtain ⟨k', h1, rfl⟩ := ht
      have hne : name ≠ name' := fun h => hl e' y (h ▸ hc)
      simp [RobotUtils.getId, RobotUtils.setNameToId, find_put, hne]
    | setForceLimitsFromId y lo' up' => simp only [TableCmd.apply, Outcome.map_eq_ok] at ht; obtain ⟨k', h1, rfl⟩ := ht; rfl
    | setJointLimitsFromId y lo' up' => simp only [TableCmd.apply, Outcome.map_eq_ok] at ht; obtain ⟨k', h1, rfl⟩ := ht; rfl
    | setForceNameToForceId name y => simp only [TableCmd.apply, Outcome.map_eq_ok] at ht; obtain ⟨k', h1, rfl⟩ := ht; rfl
    | setJointsUrdfToSot o => simp only [TableCmd.apply, Outcome.map_eq_ok] at ht; obtain ⟨k', h1, rfl⟩ := ht; rfl)
  exact ⟨t', h2, by rw [h3]; simp [RobotUtils.getId, RobotUtils.setNameToId, find_put]⟩

/-- **C127.** The identifier given to the name of a force sensor likewise; the names of the sensors and those of the joints are apart. -/
theorem C127_force_id {w : World E} (hw : Sound w) {e : E} {n : String} (he : Bound w e n) {x : Rat} {k : Int} (hk : IsIndex x k)
    (hf : Fits k) (name : String) (l : List (E × Cmd)) (hl : ∀ e' y, (e', Cmd.table (.setForceNameToForceId name y)) ∉ l) :
    ∃ t, tablesOf (run (step w e (.table (.setForceNameToForceId name x))).1 l) n = some t ∧ RobotUtils.getId t.forces.names name = k ∧
      (name = "rf" → t.forces.rightFoot = some k) ∧ (name = "lf" → t.forces.leftFoot = some k) ∧
      (name = "lh" → t.forces.leftHand = some k) ∧ (name = "rh" → t.forces.rightHand = some k) := by
  obtain ⟨r, hr⟩ := Option.ne_none_iff_exists'.1 (hw e n (by rw [he]))
  have h1 := (tables_step (c := .setForceNameToForceId name x) he (t := r.tables) (by simp [tablesOf, hr])
    (by rw [TableCmd.apply, toIndex_ok.2 ⟨hk, hf⟩]; rfl)).2
  have hn : ∀ (f : RobotUtils.Forces) (a : String) (i : Int), (RobotUtils.setForce f a i).names = RobotUtils.setNameToId f.names a i := by
    intro f a i
    unfold RobotUtils.setForce
    dsimp only
    split_ifs <;> rfl
  obtain ⟨t', h2, h3⟩ := obs_run (fun t => (RobotUtils.getId t.forces.names name, (if name = "rf" then t.forces.rightFoot else
      if name = "lf" then t.forces.leftFoot else if name = "lh" then t.forces.leftHand else if name = "rh" then t.forces.rightHand else none))) n l h1 (by
    rintro c ⟨e', hc⟩ t t' ht
    cases c with
    | setForceNameToForceId name' y =>
      simp only [TableCmd.apply, Outcome.map_eq_ok] at ht
      obtain ⟨k', h1, rfl⟩ := ht
      have hne : name ≠ name' := fun h => hl e' y (h ▸ hc)
      refine Prod.ext ?_ ?_
      · simp only [hn]
        simp [RobotUtils.getId, RobotUtils.setNameToId, find_put, hne]
      · unfold RobotUtils.setForce
        dsimp only
        split_ifs <;> first | rfl | (exfalso; apply hne; simp_all)
    | setNameToId name y => simp only [TableCmd.apply, Outcome.map_eq_ok] at ht; obtain ⟨k', h1, rfl⟩ := ht; rfl
    | setForceLimitsFromId y lo' up' => simp only [TableCmd.apply, Outcome.map_eq_ok] at ht; obtain ⟨k', h1, rfl⟩ := ht; rfl
    | setJointLimitsFromId y lo' up' => simp only [TableCmd.apply, Outcome.map_eq_ok] at ht; obtain ⟨k', h1, rfl⟩ := ht; rfl
    | setJointsUrdfToSot o => simp only [TableCmd.apply, Outcome.map_eq_ok] at ht; obtain ⟨k', h1, rfl⟩ := ht; rfl)
  have h4 := congrArg Prod.fst h3
  have h5 := congrArg Prod.snd h3
  simp only [hn] at h4 h5
  refine ⟨t', h2, ?_, ?_, ?_, ?_, ?_⟩
  · rw [h4]; simp [RobotUtils.getId, RobotUtils.setNameToId, find_put]
  · rintro rfl; simpa [RobotUtils.setForce] using h5
  · rintro rfl; simpa [RobotUtils.setForce] using h5
  · rintro rfl; simpa [RobotUtils.setForce] using h5
  · rintro rfl; simpa [RobotUtils.setForce] using h5

/-- The tables of a robot that a command makes known. -/
theorem tables_fresh {w : World E} (c : E × Cmd) {n : String} {t : Tables} (h0 : tablesOf w n = none)
    (ht : tablesOf (step w c.1 c.2).1 n = some t) : t = .new := by
  have hn : findRobot n w.robots = none := by simpa [tablesOf] using h0
  have hon : ∀ m f l, findRobot n l = none → findRobot n (onRobot m f l) = none := by
    intro m f l hl
    rw [findRobot_onRobot]
    split_ifs with h
    · subst h
      simp [hl]
    · exact hl
  have hno : ∀ w' : World E, findRobot n w'.robots = none → tablesOf w' n ≠ some t := by
    intro w' h
    simp [tablesOf, h]
  have hg : ∀ e f, tablesOf (w.guarded e f).1 n ≠ some t := by
    intro e f
    rw [World.guarded]
    split_ifs
    · exact hno _ hn
    · cases (w.servers e).robot with
      | none => exact hno _ hn
      | some m => exact hno _ (hon m f _ hn)
  obtain ⟨e, c⟩ := c
  dsimp only at ht
  cases c with
  | init dt urdf m =>
    simp only [step] at ht
    split_ifs at ht
    · exact absurd ht (hno _ hn)
    · rw [tablesOf, findRobot_onRobot, findRobot_ensure] at ht
      by_cases hnm : n = m
      · subst hnm
        simp only [if_true, hn, Option.getD_none, Option.map_some, Option.some.injEq] at ht
        exact ht.symm
      · rw [if_neg hnm, findRobot_ensure, if_neg hnm, hn] at ht
        simp at ht
  | initSimple dt =>
    simp only [step] at ht
    split_ifs at ht
    · exact absurd ht (hno _ hn)
    · split at ht <;> exact absurd ht (hno _ hn)
  | setParameter name text =>
    simp only [step] at ht
    split_ifs at ht
    · exact absurd ht (hno _ hn)
    · split at ht
      · exact absurd ht (hno _ hn)
      · split at ht
        · exact absurd ht (hno _ hn)
        · split at ht
          · exact absurd ht (hno _ hn)
          · exact absurd ht (hno _ (hon _ _ _ hn))
  | setImuJointName x => exact absurd ht (hg _ _)
  | setFootFrameName x y => exact absurd ht (hg _ _)
  | setHandFrameName x y => exact absurd ht (hg _ _)
  | setRightFootSoleXYZ x => exact absurd ht (hg _ _)
  | setRightFootForceSensorXYZ x => exact absurd ht (hg _ _)
  | displayRobotUtil =>
    simp only [step] at ht
    split at ht <;> exact absurd ht (hno _ hn)
  | table c =>
    simp only [step] at ht
    split_ifs at ht
    · exact absurd ht (hno _ hn)
    · split at ht
      · exact absurd ht (hno _ hn)
      · split at ht
        · exact absurd ht (hno _ hn)
        · split at ht
          · exact absurd ht (hno _ (hon _ _ _ hn))
          · exact absurd ht (hno _ hn)

/-- **C127.** In every robot, after any commands from the start of the program, the tables of names are those that some list of registrations
gives: what C44 says of them holds. -/
theorem C127_names (l : List (E × Cmd)) (n : String) {t : Tables} (ht : tablesOf (run (World.new : World E) l) n = some t) :
    (∃ regs, t.names = RobotUtils.register regs) ∧ ∃ regs, t.forces = RobotUtils.forcesAfter regs := by
  have key : ∀ (l : List (E × Cmd)) (w : World E),
      (∀ n t, tablesOf w n = some t → (∃ regs, t.names = RobotUtils.register regs) ∧ ∃ regs, t.forces = RobotUtils.forcesAfter regs) →
      ∀ n t, tablesOf (run w l) n = some t → (∃ regs, t.names = RobotUtils.register regs) ∧ ∃ regs, t.forces = RobotUtils.forcesAfter regs := by
    intro l
    induction l with
    | nil => exact fun w h => h
    | cons c l ih =>
      intro w h
      apply ih
      intro n t ht
      cases h0 : tablesOf w n with
      | some t0 =>
        rcases tables_any c.1 c.2 n h0 with h1 | ⟨c', -, t1, h1, h2⟩
        · rw [h1] at ht
          cases ht
          exact h n t h0
        · rw [h2] at ht
          cases ht
          obtain ⟨⟨r1, e1⟩, r2, e2⟩ := h n t0 h0
          cases c' with
          | setNameToId name y =>
            simp only [TableCmd.apply, Outcome.map_eq_ok] at h1
            obtain ⟨k', -, rfl⟩ := h1
            exact ⟨⟨r1 ++ [(name, k')], by simp [e1, RobotUtils.register]⟩, r2, e2⟩
          | setForceNameToForceId name y =>
            simp only [TableCmd.apply, Outcome.map_eq_ok] at h1
            obtain ⟨k', -, rfl⟩ := h1
            exact ⟨⟨r1, e1⟩, r2 ++ [(name, k')], by simp [e2, RobotUtils.forcesAfter]⟩
          | setForceLimitsFromId y lo' up' =>
            simp only [TableCmd.apply, Outcome.map_eq_ok] at h1
            obtain ⟨k', -, rfl⟩ := h1
            exact ⟨⟨r1, e1⟩, r2, e2⟩
          | setJointLimitsFromId y lo' up' =>
            simp only [TableCmd.apply, Outcome.map_eq_ok] at h1
            obtain ⟨k', -, rfl⟩ := h1
            exact ⟨⟨r1, e1⟩, r2, e2⟩
          | setJointsUrdfToSot o =>
            simp only [TableCmd.apply, Outcome.map_eq_ok] at h1
            obtain ⟨k', -, rfl⟩ := h1
            exact ⟨⟨r1, e1⟩, r2, e2⟩
      | none =>
        have hnew : t = .new := tables_fresh c h0 ht
        subst hnew
        exact ⟨⟨[], rfl⟩, [], rfl⟩
  exact key l World.new (by intro n t h; simp [tablesOf, World.new, findRobot] at h) n t ht

/-- What holds of new tables and is kept by the commands of a history holds of all the tables. -/
theorem tables_inv (P : Tables → Prop) (h0 : P .new) (l : List (E × Cmd))
    (hl : ∀ c, (∃ e, (e, Cmd.table c) ∈ l) → ∀ t t', c.apply t = .ok t' → P t → P t') (w : World E)
    (hw : ∀ n t, tablesOf w n = some t → P t) (n : String) (t : Tables) (ht : tablesOf (run w l) n = some t) : P t := by
  induction l generalizing w with
  | nil => exact hw n t ht
  | cons c l ih =>
    refine ih (fun c' ⟨e, he⟩ => hl c' ⟨e, by simp [he]⟩) _ ?_ ht
    intro m t1 ht1
    cases hm : tablesOf w m with
    | none =>
      rw [tables_fresh c hm ht1]
      exact h0
    | some t0 =>
      rcases tables_any c.1 c.2 m hm with h1 | ⟨c', hc', t2, h1, h2⟩
      · rw [h1] at ht1
        cases ht1
        exact hw m t1 hm
      · rw [h2] at ht1
        cases ht1
        exact hl c' ⟨c.1, by rw [← hc']; simp⟩ t0 t1 h1 (hw m t0 hm)

/-- **C127.** What was never set, whatever the servers did: the limits of a joint are zero, those of a force sensor six zeros, and the order
of the joints is unknown. -/
theorem C127_never_set (l : List (E × Cmd)) (n : String) {t : Tables} (ht : tablesOf (run (World.new : World E) l) n = some t) :
    (∀ k, (∀ e y lo up, (e, Cmd.table (.setJointLimitsFromId y lo up)) ∈ l → ¬IsIndex y k) → t.limitsOf k = (0, 0)) ∧
      (∀ k, (∀ e y lo up, (e, Cmd.table (.setForceLimitsFromId y lo up)) ∈ l → ¬IsIndex y k) →
        t.forceLimitsOf k = ([0, 0, 0, 0, 0, 0], [0, 0, 0, 0, 0, 0])) ∧
      ((∀ e o, (e, Cmd.table (.setJointsUrdfToSot o)) ∉ l) → t.joints.nb = none ∧ t.joints.map = [] ∧ t.mapping = []) := by
  have hw : ∀ (P : Tables → Prop) n t, tablesOf (World.new : World E) n = some t → P t := by
    intro P n t h
    simp [tablesOf, World.new, findRobot] at h
  refine ⟨fun k hk => ?_, fun k hk => ?_, fun ho => ?_⟩
  · refine tables_inv (fun t => t.limitsOf k = (0, 0)) rfl l ?_ _ (hw _) n t ht
    rintro c ⟨e, hc⟩ t t' ht h
    cases c with
    | setJointLimitsFromId y lo' up' =>
      simp only [TableCmd.apply, Outcome.map_eq_ok] at ht
      obtain ⟨k', h1, rfl⟩ := ht
      have hne : k ≠ k' := fun h => hk e y lo' up' hc (h ▸ (toIndex_ok.1 h1).1)
      simpa [Tables.limitsOf, SMap.find_put, hne] using h
    | _ => simp only [TableCmd.apply, Outcome.map_eq_ok] at ht; obtain ⟨k', h1, rfl⟩ := ht; exact h
  · refine tables_inv (fun t => t.forceLimitsOf k = ([0, 0, 0, 0, 0, 0], [0, 0, 0, 0, 0, 0])) rfl l ?_ _ (hw _) n t ht
    rintro c ⟨e, hc⟩ t t' ht h
    cases c with
    | setForceLimitsFromId y lo' up' =>
      simp only [TableCmd.apply, Outcome.map_eq_ok] at ht
      obtain ⟨k', h1, rfl⟩ := ht
      have hne : k ≠ k' := fun h => hk e y lo' up' hc (h ▸ (toIndex_ok.1 h1).1)
      simpa [Tables.forceLimitsOf, SMap.find_put, hne] using h
    | _ => simp only [TableCmd.apply, Outcome.map_eq_ok] at ht; obtain ⟨k', h1, rfl⟩ := ht; exact h
  · refine tables_inv (fun t => t.joints.nb = none ∧ t.joints.map = [] ∧ t.mapping = []) ⟨rfl, rfl, rfl⟩ l ?_ _ (hw _) n t ht
    rintro c ⟨e, hc⟩ t t' ht h
    cases c with
    | setJointsUrdfToSot o => exact absurd hc (ho e o)
    | _ => simp only [TableCmd.apply, Outcome.map_eq_ok] at ht; obtain ⟨k', h1, rfl⟩ := ht; exact h

/-- **C127.** The order of the joints: a vector of integers from 0 to 2^32 - 1, of any sizes, is stored as it is, in both forms, until another
one is given. -/
theorem C127_order {w : World E} (hw : Sound w) {e : E} {n : String} (he : Bound w e n) (m : List Nat) (hm : ∀ k ∈ m, k < 4294967296)
    (l : List (E × Cmd)) (hl : ∀ e' o, (e', Cmd.table (.setJointsUrdfToSot o)) ∉ l) :
    ∃ t, tablesOf (run (step w e (.table (.setJointsUrdfToSot (m.map Nat.cast)))).1 l) n = some t ∧
      t.joints = ⟨some m.length, m.map Nat.cast⟩ ∧ t.mapping = m.map Nat.cast := by
  obtain ⟨r, hr⟩ := Option.ne_none_iff_exists'.1 (hw e n (by rw [he]))
  have h1 := (tables_step (c := .setJointsUrdfToSot (m.map Nat.cast)) he (t := r.tables) (by simp [tablesOf, hr])
    (by rw [TableCmd.apply, RobotUtils.C43_vector_mapping _ m hm]; rfl)).2
  obtain ⟨t', h2, h3⟩ := obs_run (fun t => (t.joints, t.mapping)) n l h1 (by
    rintro c ⟨e', hc⟩ t t' ht
    cases c with
    | setJointsUrdfToSot o => exact absurd hc (hl e' o)
    | setNameToId name y => simp only [TableCmd.apply, Outcome.map_eq_ok] at ht; obtain ⟨k', h1, rfl⟩ := ht; rfl
    | setForceLimitsFromId y lo' up' => simp only [TableCmd.apply, Outcome.map_eq_ok] at ht; obtain ⟨k', h1, rfl⟩ := ht; rfl
    | setJointLimitsFromId y lo' up' => simp only [TableCmd.apply, Outcome.map_eq_ok] at ht; obtain ⟨k', h1, rfl⟩ := ht; rfl
    | setForceNameToForceId name y => simp only [TableCmd.apply, Outcome.map_eq_ok] at ht; obtain ⟨k', h1, rfl⟩ := ht; rfl)
  simp only [Prod.mk.injEq] at h3
  exact ⟨t', h2, by simpa [RobotUtils.setUrdfToSot] using h3.1, by simpa using h3.2⟩

/-- **C127.** The commands of the tables of one robot leave the other robots and all that is not a table. -/
theorem C127_apart {w : World E} {e : E} {n : String} (he : Bound w e n) (c : TableCmd) (m : String) :
    (m ≠ n → findRobot m (step w e (.table c)).1.robots = findRobot m w.robots) ∧
      ∀ r, findRobot n w.robots = some r → ∃ t, findRobot n (step w e (.table c)).1.robots = some { r with tables := t } := by
  rw [Bound] at he
  simp only [step, he, Bool.true_eq_false, if_false]
  cases hr : findRobot n w.robots with
  | none => simp
  | some r =>
    simp only
    cases hc : c.apply r.tables with
    | ok t =>
      refine ⟨fun h => by simp [findRobot_onRobot, h], ?_⟩
      rintro r' ⟨⟩
      exact ⟨t, by simp [findRobot_onRobot, hr]⟩
    | throw => exact ⟨fun _ => rfl, fun r' h => ⟨r'.tables, by rw [hr]; exact h⟩⟩
    | ub => exact ⟨fun _ => rfl, fun r' h => ⟨r'.tables, by rw [hr]; exact h⟩⟩

/-- **C127.** A position is in the range of a joint exactly when it is between its limits; for a joint whose limits were never set, exactly when
it is zero. -/
theorem C127_in_range (t : Tables) (id : Nat) (q : Rat) :
    (t.inRange id q = true ↔ (t.limitsOf id).1 ≤ q ∧ q ≤ (t.limitsOf id).2) ∧
      ((∀ v, ((id : Int), v) ∉ t.limits) → (t.inRange id q = true ↔ q = 0)) := by
  have h1 : t.inRange id q = true ↔ (t.limitsOf id).1 ≤ q ∧ q ≤ (t.limitsOf id).2 := by
    simp only [Tables.inRange]
    split_ifs with h2 h3
    · simp [h2]
    · simp [h3]
    · exact ⟨fun _ => ⟨not_lt.1 h2, not_lt.1 h3⟩, fun _ => rfl⟩
  refine ⟨h1, fun h => h1.trans ?_⟩
  have : find (id : Int) t.limits = none := by
    generalize t.limits = m at h
    induction m with
    | nil => rfl
    | cons p m ih =>
      obtain ⟨a, b⟩ := p
      rw [find, if_neg, ih]
      · exact fun v hv => h v (List.mem_cons_of_mem _ hv)
      · rintro rfl
        exact h b List.mem_cons_self
  simp only [Tables.limitsOf, this, Option.getD_none]
  exact ⟨fun h => le_antisymm h.2 h.1, fun h => by simp [h]⟩

/-- **C127.** The conversion of a name gives the identifier of the joint when it is a natural number below 2^32. A joint registered with a
negative identifier is said not to exist, as an unknown one is; before the order of the joints is given, the answer for such names reads a
member that is not initialised. -/
theorem C127_convert (t : Tables) (name : String) :
    (∀ k : Nat, k < 4294967296 → RobotUtils.getId t.names name = k → t.convert name = .ok (some k)) ∧
      (RobotUtils.getId t.names name < 0 → t.convert name = if t.joints.nb = none then .ub else .ok none) := by
  constructor
  · intro k hk h
    simp [Tables.convert, h, Nat.mod_eq_of_lt hk]
  · intro h
    rw [Tables.convert, if_pos h]
    cases t.joints.nb <;> rfl

/-- Two servers of a robot: the second one sets the limits of the joint of identifier 0 with the number -1/2, after the first one had set them
with 1/3. -/
example : IsIndex (-1 / 2) 0 ∧ IsIndex (1 / 3) 0 ∧ Fits 0 ∧
    Bound (run (World.new : World (Fin 2)) [(0, .init 1 "u" "r"), (1, .initSimple 1)]) 1 "r" ∧
    ∃ t, tablesOf (run (run (World.new : World (Fin 2)) [(0, .init 1 "u" "r"), (1, .initSimple 1)])
      [(0, .table (.setJointLimitsFromId (1 / 3) 0 1)), (1, .table (.setJointLimitsFromId (-1 / 2) 2 3)), (0, .table (.setNameToId "a" 4))]) "r" = some t ∧
      t.limitsOf 0 = (2, 3) := by
  have i1 : IsIndex (-1 / 2) 0 := by norm_num [IsIndex]
  have i2 : IsIndex (1 / 3) 0 := by norm_num [IsIndex]
  have hf : Fits 0 := by norm_num [Fits]
  have hb := C105_case.2.1
  refine ⟨i1, i2, hf, hb, ?_⟩
  have hs : Sound (run (World.new : World (Fin 2)) [(0, .init 1 "u" "r"), (1, .initSimple 1)]) := sound_new.run _
  refine C127_joint_limits (w := (step (run World.new [(0, .init 1 "u" "r"), (1, .initSimple 1)]) 0 (.table (.setJointLimitsFromId (1 / 3) 0 1))).1)
    (hs.step _ _) (e := 1) (n := "r") ?_ i1 hf 2 3 [(0, .table (.setNameToId "a" 4))] ?_
  · rw [Bound, servers_step _ _ (by simp) (by simp)]
    exact hb
  · intro e' y lo' up' h
    simp at h

end Verif.ParamServer
