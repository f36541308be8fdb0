import Verif.Wiring.Model
import Verif.Common.Lists

/-!
# C134: the meta tasks of a script, and the names of their entities
-/

set_option linter.unusedSectionVars false

namespace Verif.Wiring

variable {T : Type}

/-! ## Specification -/

/-- The names of the entities of a meta task. -/
def ents (m : Meta) : List Name :=
  match m.kind with
  | .point => [['o', 'p', 'm', 'o', 'd', 'i', 'f'] ++ m.name, ['f', 'e', 'a', 't', 'u', 'r', 'e'] ++ m.name,
      ['f', 'e', 'a', 't', 'u', 'r', 'e'] ++ m.name ++ ['_', 'r', 'e', 'f'], ['t', 'a', 's', 'k'] ++ m.name, ['g', 'a', 'i', 'n'] ++ m.name]
  | .relative => [['o', 'p', 'm', 'o', 'd', 'i', 'f'] ++ m.name, ['f', 'e', 'a', 't', 'u', 'r', 'e', 'R', 'e', 'l'] ++ m.name,
      ['f', 'e', 'a', 't', 'u', 'r', 'e', 'R', 'e', 'l'] ++ m.name ++ ['_', 'r', 'e', 'f'], ['t', 'a', 's', 'k'] ++ m.name,
      ['g', 'a', 'i', 'n'] ++ m.name, ['o', 'p', 'm', 'o', 'd', 'i', 'f', 'B', 'a', 's', 'e'] ++ m.name]
  | _ => [['f', 'e', 'a', 't', 'u', 'r', 'e'] ++ m.name, ['f', 'e', 'a', 't', 'u', 'r', 'e', 'D', 'e', 's'] ++ m.name,
      ['t', 'a', 's', 'k'] ++ m.name, ['g', 'a', 'i', 'n'] ++ m.name]

/-- The meta tasks that a script makes. -/
def made : List (Op T) → List Meta
  | [] => []
  | .make m :: os => m :: made os
  | _ :: os => made os

/-- The value last assigned to the attribute `opmodif` of a meta task, `none` for `False`, which is the value after its constructor. -/
def setting (m : Meta) (os : List (Op T)) : Option T :=
  os.foldl (fun t o => match o with
    | .make m' => if m' = m then none else t
    | .modif m' v => if m' = m then v else t
    | .modifBase _ _ => t) none

/-- The same for `opmodifBase`. -/
def settingBase (m : Meta) (os : List (Op T)) : Option T :=
  os.foldl (fun t o => match o with
    | .make m' => if m' = m then none else t
    | .modifBase m' v => if m' = m then v else t
    | .modif _ _ => t) none

/-- Two meta tasks without a common entity. -/
def Apart (m m' : Meta) : Prop := ∀ e ∈ ents m, e ∉ ents m'

/-- A script whose meta tasks have no common entity, and that assigns attributes of the meta tasks that it has made. -/
inductive Proper : List (Op T) → Prop
  | nil : Proper []
  | make {os : List (Op T)} (m : Meta) (h : Proper os) (ha : ∀ m' ∈ made os, Apart m' m) : Proper (os ++ [.make m])
  | modif {os : List (Op T)} (m : Meta) (t : Option T) (h : Proper os) (hm : m ∈ made os) : Proper (os ++ [.modif m t])
  | modifBase {os : List (Op T)} (m : Meta) (t : Option T) (h : Proper os) (hm : m ∈ made os) : Proper (os ++ [.modifBase m t])

/-- The inputs `p` and `j` of a feature read the operational point `op` of the robot, displaced by the transformation `t` when there is one:
then they are plugged on the modifier, which reads the point and has the transformation. -/
structure Reads (g : Graph T) (feature modif op : Name) (p j : Input) (t : Option T) : Prop where
  position : g.plugged feature p = some (if t.isSome then .position modif else .robot op)
  jacobian : g.plugged feature j = some (if t.isSome then .jacobian modif else .robot ('J' :: op))
  positionIN : g.plugged modif .positionIN = some (.robot op)
  jacobianIN : g.plugged modif .jacobianIN = some (.robot ('J' :: op))
  activ : g.activ modif = t.isSome
  transformation : ∀ v, t = some v → g.transformation modif = some v

/-- What a meta task announces: its task has one feature, its own; the feature compares the operational points, displaced by `t` and `tb`,
or the center of mass, or the posture, with its own reference, on which nothing is plugged; the gain reads the error of the task and the
task the gain. -/
structure Wired (g : Graph T) (m : Meta) (t tb : Option T) : Prop where
  features : g.features m.task = [m.feature]
  reference : g.reference m.feature = some m.featureDes
  free : ∀ i, g.plugged m.featureDes i = none
  error : g.plugged m.gain .error = some (.error m.task)
  gain : g.plugged m.task .controlGain = some (.gain m.gain)
  point : m.kind = .point ∨ m.kind = .relative → Reads g m.feature m.modif m.op .position .jq t
  base : m.kind = .relative → Reads g m.feature m.modifBase m.base .positionRef .jqRef tb
  com : m.kind = .com → g.plugged m.feature .errorIN = some (.robot ['c', 'o', 'm']) ∧
    g.plugged m.feature .jacobianIN = some (.robot ['J', 'c', 'o', 'm'])
  posture : m.kind = .posture → g.plugged m.feature .errorIN = some (.robot ['p', 'o', 's', 'i', 't', 'i', 'o', 'n']) ∧
    g.plugged m.feature .jacobianIN = none
  first : m.kind = .point ∨ m.kind = .relative → g.gain m.gain = some (1 / 10, 1 / 10, 125000) ∧
    g.selec m.feature = some ['1', '1', '1', '1', '1', '1']
  classes : g.classOf m.task = some .task ∧ g.classOf m.gain = some .gain ∧
    g.classOf m.feature = some (match m.kind with | .point => .point6d | .relative => .point6dRelative | _ => .generic) ∧
    g.classOf m.featureDes = some (match m.kind with | .point => .point6d | .relative => .point6dRelative | _ => .generic)

/-- Nothing was done with the name. -/
structure Unused (g : Graph T) (e : Name) : Prop where
  classOf : g.classOf e = none
  plugged : ∀ i, g.plugged e i = none
  features : g.features e = []

/-! ## Names -/

theorem Meta.feature_ne_des (m : Meta) : m.feature ≠ m.featureDes := by
  intro h
  have := congrArg List.length h
  unfold Meta.featureDes Meta.feature at this
  cases hk : m.kind <;> simp [hk] at this

theorem Meta.modif_ne_base (m : Meta) : m.modif ≠ m.modifBase := by
  intro h
  have := congrArg List.length h
  simp [Meta.modif, Meta.modifBase] at this

theorem Meta.head (m : Meta) : m.modif.head? = some 'o' ∧ m.modifBase.head? = some 'o' ∧ m.feature.head? = some 'f' ∧
    m.featureDes.head? = some 'f' ∧ m.task.head? = some 't' ∧ m.gain.head? = some 'g' := by
  refine ⟨rfl, rfl, ?_, ?_, rfl, rfl⟩
  · unfold Meta.feature
    cases m.kind <;> rfl
  · unfold Meta.featureDes Meta.feature
    cases m.kind <;> rfl

theorem ne_of_head {a b : Name} {c d : Char} (ha : a.head? = some c) (hb : b.head? = some d) (h : c ≠ d) : a ≠ b := by
  rintro rfl
  rw [ha] at hb
  exact h (by simpa using hb)

/-- The different names of one meta task. -/
structure Distinct (m : Meta) : Prop where
  fd : m.feature ≠ m.featureDes
  df : m.featureDes ≠ m.feature
  mb : m.modif ≠ m.modifBase
  bm : m.modifBase ≠ m.modif
  mf : m.modif ≠ m.feature
  fm : m.feature ≠ m.modif
  md : m.modif ≠ m.featureDes
  dm : m.featureDes ≠ m.modif
  mt : m.modif ≠ m.task
  tm : m.task ≠ m.modif
  mg : m.modif ≠ m.gain
  gm : m.gain ≠ m.modif
  bf : m.modifBase ≠ m.feature
  fb : m.feature ≠ m.modifBase
  bd : m.modifBase ≠ m.featureDes
  db : m.featureDes ≠ m.modifBase
  bt : m.modifBase ≠ m.task
  tb : m.task ≠ m.modifBase
  bg : m.modifBase ≠ m.gain
  gb : m.gain ≠ m.modifBase
  ft : m.feature ≠ m.task
  tf : m.task ≠ m.feature
  fg : m.feature ≠ m.gain
  gf : m.gain ≠ m.feature
  dt : m.featureDes ≠ m.task
  td : m.task ≠ m.featureDes
  dg : m.featureDes ≠ m.gain
  gd : m.gain ≠ m.featureDes
  tg : m.task ≠ m.gain
  gt : m.gain ≠ m.task

theorem distinct (m : Meta) : Distinct m := by
  obtain ⟨h1, h2, h3, h4, h5, h6⟩ := m.head
  exact ⟨m.feature_ne_des, m.feature_ne_des.symm, m.modif_ne_base, m.modif_ne_base.symm,
    ne_of_head h1 h3 (by decide), ne_of_head h3 h1 (by decide), ne_of_head h1 h4 (by decide), ne_of_head h4 h1 (by decide),
    ne_of_head h1 h5 (by decide), ne_of_head h5 h1 (by decide), ne_of_head h1 h6 (by decide), ne_of_head h6 h1 (by decide),
    ne_of_head h2 h3 (by decide), ne_of_head h3 h2 (by decide), ne_of_head h2 h4 (by decide), ne_of_head h4 h2 (by decide),
    ne_of_head h2 h5 (by decide), ne_of_head h5 h2 (by decide), ne_of_head h2 h6 (by decide), ne_of_head h6 h2 (by decide),
    ne_of_head h3 h5 (by decide), ne_of_head h5 h3 (by decide), ne_of_head h3 h6 (by decide), ne_of_head h6 h3 (by decide),
    ne_of_head h4 h5 (by decide), ne_of_head h5 h4 (by decide), ne_of_head h4 h6 (by decide), ne_of_head h6 h4 (by decide),
    ne_of_head h5 h6 (by decide), ne_of_head h6 h5 (by decide)⟩

theorem mem_feature (m : Meta) : m.feature ∈ ents m := by
  unfold ents Meta.feature
  cases m.kind <;> simp

theorem mem_des (m : Meta) : m.featureDes ∈ ents m := by
  unfold ents Meta.featureDes Meta.feature
  cases m.kind <;> simp

theorem mem_task (m : Meta) : m.task ∈ ents m := by
  unfold ents Meta.task
  cases m.kind <;> simp

theorem mem_gain (m : Meta) : m.gain ∈ ents m := by
  unfold ents Meta.gain
  cases m.kind <;> simp

theorem mem_modif (m : Meta) (h : m.kind = .point ∨ m.kind = .relative) : m.modif ∈ ents m := by
  unfold ents Meta.modif
  rcases h with h | h <;> simp [h]

theorem mem_base (m : Meta) (h : m.kind = .relative) : m.modifBase ∈ ents m := by
  unfold ents Meta.modifBase
  simp [h]

/-! ## Frames -/

/-- Nothing changes for the name. -/
structure Same (g g' : Graph T) (e : Name) : Prop where
  classOf : g'.classOf e = g.classOf e
  plugged : g'.plugged e = g.plugged e
  reference : g'.reference e = g.reference e
  features : g'.features e = g.features e
  activ : g'.activ e = g.activ e
  transformation : g'.transformation e = g.transformation e
  gain : g'.gain e = g.gain e
  selec : g'.selec e = g.selec e

theorem create_eq {g g' : Graph T} {c : Cls} {e : Name} (h : g.create c e = .ok g') :
    g' = { g with classOf := upd g.classOf e (some c) } := by
  unfold Graph.create at h
  split at h
  · exact (Outcome.ok.inj h).symm
  · rename_i c' hc
    split_ifs at h with hcc
    cases h
    have : upd g.classOf e (some c) = g.classOf := by
      funext x
      unfold upd
      split_ifs with hx
      · rw [hx, hc, hcc]
      · rfl
    rw [this]

theorem plugRobot_eq {g g' : Graph T} {s e : Name} {i : Input} (h : g.plugRobot s e i = .ok g') : g' = g.plug (.robot s) e i := by
  unfold Graph.plugRobot at h
  split_ifs at h
  exact (Outcome.ok.inj h).symm

theorem createModif_eq {g g' : Graph T} {e op : Name} (h : g.createModif e op = .ok g') :
    g' = { g with
      classOf := upd g.classOf e (some .modifier)
      plugged := upd g.plugged e (upd (upd (g.plugged e) .positionIN (some (.robot op))) .jacobianIN (some (.robot ('J' :: op))))
      activ := upd g.activ e false } := by
  simp only [Graph.createModif, Outcome.bind_eq_ok, Outcome.map_eq_ok] at h
  obtain ⟨g1, h1, g2, h2, g3, h3, rfl⟩ := h
  rw [plugRobot_eq h3, plugRobot_eq h2, create_eq h1]
  simp only [Graph.plug, Graph.mk.injEq, true_and, and_true]
  funext x
  unfold upd
  split_ifs <;> simp_all

theorem createFeatures_eq {g g' : Graph T} {m : Meta} {c : Cls} (h : g.createFeatures m c = .ok g') :
    g' = { g with
      classOf := upd (upd g.classOf m.feature (some c)) m.featureDes (some c)
      selec := upd g.selec m.feature (some ['1', '1', '1', '1', '1', '1']) } := by
  simp only [Graph.createFeatures, Outcome.bind_eq_ok, Outcome.map_eq_ok] at h
  obtain ⟨g1, h1, g2, h2, rfl⟩ := h
  rw [create_eq h2, create_eq h1]

theorem createTaskGain_eq {g g' : Graph T} {m : Meta} (h : g.createTaskGain m = .ok g') :
    g' = { g with
      classOf := upd (upd g.classOf m.task (some .task)) m.gain (some .gain)
      gain := upd g.gain m.gain (some (1 / 10, 1 / 10, 125000)) } := by
  simp only [Graph.createTaskGain, Outcome.bind_eq_ok, Outcome.map_eq_ok] at h
  obtain ⟨g1, h1, g2, h2, rfl⟩ := h
  rw [create_eq h2, create_eq h1]

theorem createGeneric_eq {g g' : Graph T} {m : Meta} (h : g.createGeneric m = .ok g') :
    g' = { g with classOf := upd (upd (upd g.classOf m.feature (some .generic)) m.featureDes (some .generic)) m.gain (some .gain) } := by
  simp only [Graph.createGeneric, Outcome.bind_eq_ok] at h
  obtain ⟨g1, h1, g2, h2, h3⟩ := h
  rw [create_eq h3, create_eq h2, create_eq h1]

theorem makePoint_wired {create : List Name → Name → Outcome (List Name)} {g g' : Graph T} {m : Meta} (hk : m.kind = .point)
    (h : makePoint create g m = .ok g') (hu : ∀ e ∈ ents m, Unused g e) : Wired g' m none none ∧ ∀ e, e ∉ ents m → Same g g' e := by
  have d := distinct m
  simp only [makePoint, Outcome.bind_eq_ok, Outcome.map_eq_ok] at h
  obtain ⟨rb, -, g1, h1, g2, h2, g3, h3, g4, h4, g5, h5, rfl⟩ := h
  have e5 := plugRobot_eq h5
  rw [plugRobot_eq h4, createTaskGain_eq h3, createFeatures_eq h2, createModif_eq h1] at e5
  clear h1 h2 h3 h4 h5
  subst e5
  have ut := hu _ (mem_task m)
  have ud := hu _ (mem_des m)
  constructor
  · constructor
    case point =>
      intro _
      constructor <;> simp [Graph.plugTask, Graph.plug, Graph.setReference, upd, d.fm, d.mf, d.gm, d.mg, d.tm, d.mt, d.fg, d.gf, d.ft, d.tf]
    all_goals simp [Graph.plugTask, Graph.plug, Graph.setReference, upd, hk, d.fd, d.df, d.fm, d.mf, d.gm, d.mg, d.tm, d.mt, d.fg, d.gf, d.ft, d.tf,
      d.tg, d.gt, d.dg, d.gd, d.dt, d.td, d.dm, d.md, ut.features, ud.plugged]
  · intro e he
    have n1 : e ≠ m.modif := fun h => he (h ▸ mem_modif m (.inl hk))
    have n2 : e ≠ m.feature := fun h => he (h ▸ mem_feature m)
    have n3 : e ≠ m.featureDes := fun h => he (h ▸ mem_des m)
    have n4 : e ≠ m.task := fun h => he (h ▸ mem_task m)
    have n5 : e ≠ m.gain := fun h => he (h ▸ mem_gain m)
    constructor <;> simp [Graph.plugTask, Graph.plug, Graph.setReference, upd, n1, n2, n3, n4, n5]

theorem makeRelative_wired {create : List Name → Name → Outcome (List Name)} {g g' : Graph T} {m : Meta} (hk : m.kind = .relative)
    (h : makeRelative create g m = .ok g') (hu : ∀ e ∈ ents m, Unused g e) : Wired g' m none none ∧ ∀ e, e ∉ ents m → Same g g' e := by
  have d := distinct m
  simp only [makeRelative, Outcome.bind_eq_ok, Outcome.map_eq_ok] at h
  obtain ⟨rb, -, rb', -, g1, h1, g0, h0, g2, h2, g3, h3, g4, h4, g5, h5, g6, h6, g7, h7, rfl⟩ := h
  have e7 := plugRobot_eq h7
  rw [plugRobot_eq h6, plugRobot_eq h5, plugRobot_eq h4, createTaskGain_eq h3, createFeatures_eq h2, createModif_eq h0, createModif_eq h1] at e7
  clear h0 h1 h2 h3 h4 h5 h6 h7
  subst e7
  have ut := hu _ (mem_task m)
  have ud := hu _ (mem_des m)
  constructor
  · constructor
    case point =>
      intro _
      constructor <;> simp [Graph.plugTask, Graph.plug, Graph.setReference, upd, d.fm, d.mf, d.gm, d.mg, d.tm, d.mt, d.fg, d.gf, d.ft, d.tf,
        d.mb, d.bm, d.bf, d.fb, d.bt, d.tb, d.bg, d.gb]
    case base =>
      intro _
      constructor <;> simp [Graph.plugTask, Graph.plug, Graph.setReference, upd, d.fm, d.mf, d.gm, d.mg, d.tm, d.mt, d.fg, d.gf, d.ft, d.tf,
        d.mb, d.bm, d.bf, d.fb, d.bt, d.tb, d.bg, d.gb]
    all_goals simp [Graph.plugTask, Graph.plug, Graph.setReference, upd, hk, d.fd, d.df, d.fm, d.mf, d.gm, d.mg, d.tm, d.mt, d.fg, d.gf, d.ft, d.tf,
      d.tg, d.gt, d.dg, d.gd, d.dt, d.td, d.dm, d.md, d.mb, d.bm, d.bf, d.fb, d.bt, d.tb, d.bg, d.gb, d.bd, d.db, ut.features, ud.plugged]
  · intro e he
    have n0 : e ≠ m.modifBase := fun h => he (h ▸ mem_base m hk)
    have n1 : e ≠ m.modif := fun h => he (h ▸ mem_modif m (.inr hk))
    have n2 : e ≠ m.feature := fun h => he (h ▸ mem_feature m)
    have n3 : e ≠ m.featureDes := fun h => he (h ▸ mem_des m)
    have n4 : e ≠ m.task := fun h => he (h ▸ mem_task m)
    have n5 : e ≠ m.gain := fun h => he (h ▸ mem_gain m)
    constructor <;> simp [Graph.plugTask, Graph.plug, Graph.setReference, upd, n0, n1, n2, n3, n4, n5]

theorem makeCom_wired {g g' : Graph T} {m : Meta} (hk : m.kind = .com) (h : makeCom g m = .ok g') (hu : ∀ e ∈ ents m, Unused g e) :
    Wired g' m none none ∧ ∀ e, e ∉ ents m → Same g g' e := by
  have d := distinct m
  simp only [makeCom, Outcome.bind_eq_ok, Outcome.map_eq_ok] at h
  obtain ⟨g1, h1, g2, h2, g3, h3, g4, h4, rfl⟩ := h
  have e4 := create_eq h4
  rw [plugRobot_eq h3, plugRobot_eq h2, createGeneric_eq h1] at e4
  clear h1 h2 h3 h4
  subst e4
  have ut := hu _ (mem_task m)
  have ud := hu _ (mem_des m)
  constructor
  · constructor
    all_goals simp [Graph.plugTask, Graph.plug, Graph.setReference, upd, hk, d.fd, d.df, d.fg, d.gf, d.ft, d.tf,
      d.tg, d.gt, d.dg, d.gd, d.dt, d.td, ut.features, ud.plugged]
  · intro e he
    have n2 : e ≠ m.feature := fun h => he (h ▸ mem_feature m)
    have n3 : e ≠ m.featureDes := fun h => he (h ▸ mem_des m)
    have n4 : e ≠ m.task := fun h => he (h ▸ mem_task m)
    have n5 : e ≠ m.gain := fun h => he (h ▸ mem_gain m)
    constructor <;> simp [Graph.plugTask, Graph.plug, Graph.setReference, upd, n2, n3, n4, n5]

theorem makePosture_wired {g g' : Graph T} {m : Meta} (hk : m.kind = .posture) (h : makePosture g m = .ok g')
    (hu : ∀ e ∈ ents m, Unused g e) : Wired g' m none none ∧ ∀ e, e ∉ ents m → Same g g' e := by
  have d := distinct m
  simp only [makePosture, Outcome.bind_eq_ok, Outcome.map_eq_ok] at h
  obtain ⟨g1, h1, g2, h2, g4, h4, rfl⟩ := h
  have e4 := create_eq h4
  rw [plugRobot_eq h2, createGeneric_eq h1] at e4
  clear h1 h2 h4
  subst e4
  have ut := hu _ (mem_task m)
  have ud := hu _ (mem_des m)
  have uf := hu _ (mem_feature m)
  constructor
  · constructor
    all_goals simp [Graph.plugTask, Graph.plug, Graph.setReference, upd, hk, d.fd, d.df, d.fg, d.gf, d.ft, d.tf,
      d.tg, d.gt, d.dg, d.gd, d.dt, d.td, ut.features, ud.plugged, uf.plugged]
  · intro e he
    have n2 : e ≠ m.feature := fun h => he (h ▸ mem_feature m)
    have n3 : e ≠ m.featureDes := fun h => he (h ▸ mem_des m)
    have n4 : e ≠ m.task := fun h => he (h ▸ mem_task m)
    have n5 : e ≠ m.gain := fun h => he (h ▸ mem_gain m)
    constructor <;> simp [Graph.plugTask, Graph.plug, Graph.setReference, upd, n2, n3, n4, n5]

/-- What an assignment of `opmodif` changes. -/
structure Switched (g g' : Graph T) (feature modif : Name) (p j : Input) : Prop where
  classOf : g'.classOf = g.classOf
  reference : g'.reference = g.reference
  features : g'.features = g.features
  gain : g'.gain = g.gain
  selec : g'.selec = g.selec
  others : ∀ e, e ≠ feature → g'.plugged e = g.plugged e
  inputs : ∀ i, i ≠ p → i ≠ j → g'.plugged feature i = g.plugged feature i
  activ : ∀ e, e ≠ modif → g'.activ e = g.activ e
  transformation : ∀ e, e ≠ modif → g'.transformation e = g.transformation e

theorem setModif_reads {g g' : Graph T} {feature modif op : Name} {p j : Input} {t t0 : Option T}
    (h : g.setModif feature modif op p j t = .ok g') (hpj : p ≠ j) (hfm : modif ≠ feature) (hr : Reads g feature modif op p j t0) :
    Reads g' feature modif op p j t ∧ Switched g g' feature modif p j := by
  obtain ⟨r1, r2, r3, r4, r5, r6⟩ := hr
  cases t with
  | none =>
    simp only [Graph.setModif, Outcome.bind_eq_ok, Outcome.map_eq_ok] at h
    obtain ⟨g1, h1, g2, h2, rfl⟩ := h
    have e2 := plugRobot_eq h2
    rw [plugRobot_eq h1] at e2
    clear h1 h2
    subst e2
    constructor
    · constructor <;> simp [Graph.plug, upd, hfm, hpj, r3, r4]
    · constructor
      case inputs => intro i h1 h2; simp [Graph.plug, upd, h1, h2]
      case others => intro e he; simp [Graph.plug, upd, he]
      case activ => intro e he; simp [Graph.plug, upd, he]
      all_goals simp [Graph.plug]
  | some v =>
    simp only [Graph.setModif, Outcome.ok.injEq] at h
    subst h
    cases ha : g.activ modif with
    | false =>
      constructor
      · constructor <;> simp [Graph.plug, upd, hfm, hpj, r3, r4, ha]
      · constructor
        case inputs => intro i h1 h2; simp [Graph.plug, upd, ha, h1, h2]
        case others => intro e he; simp [Graph.plug, upd, ha, he]
        case activ => intro e he; simp [Graph.plug, upd, ha, he]
        case transformation => intro e he; simp [Graph.plug, upd, ha, he]
        all_goals simp [Graph.plug, ha]
    | true =>
      have ht : t0.isSome = true := by rw [← r5, ha]
      rw [ht, if_pos rfl] at r1 r2
      constructor
      · constructor <;> simp [upd, r1, r2, r3, r4, ha]
      · constructor
        case activ => intro e he; simp [upd, he]
        case transformation => intro e he; simp [upd, he]
        all_goals simp [ha]

theorem Reads.same {g g' : Graph T} {feature modif op : Name} {p j : Input} {t : Option T} (h : Reads g feature modif op p j t)
    (hf : Same g g' feature) (hm : Same g g' modif) : Reads g' feature modif op p j t := by
  obtain ⟨r1, r2, r3, r4, r5, r6⟩ := h
  exact ⟨by rw [hf.plugged, r1], by rw [hf.plugged, r2], by rw [hm.plugged, r3], by rw [hm.plugged, r4], by rw [hm.activ, r5],
    by rw [hm.transformation]; exact r6⟩

theorem Wired.same {g g' : Graph T} {m : Meta} {t tb : Option T} (h : Wired g m t tb) (hs : ∀ e ∈ ents m, Same g g' e) :
    Wired g' m t tb := by
  have sf := hs _ (mem_feature m)
  have sd := hs _ (mem_des m)
  have st := hs _ (mem_task m)
  have sg := hs _ (mem_gain m)
  exact ⟨by rw [st.features, h.features], by rw [sf.reference, h.reference], fun i => by rw [sd.plugged, h.free], by rw [sg.plugged, h.error],
    by rw [st.plugged, h.gain], fun hk => (h.point hk).same sf (hs _ (mem_modif m hk)), fun hk => (h.base hk).same sf (hs _ (mem_base m hk)),
    fun hk => by rw [sf.plugged]; exact h.com hk, fun hk => by rw [sf.plugged]; exact h.posture hk,
    fun hk => by rw [sg.gain, sf.selec]; exact h.first hk, by rw [st.classOf, sg.classOf, sf.classOf, sd.classOf]; exact h.classes⟩

theorem Switched.same {g g' : Graph T} {feature modif : Name} {p j : Input} (h : Switched g g' feature modif p j) {e : Name} (hf : e ≠ feature)
    (hm : e ≠ modif) : Same g g' e :=
  ⟨by rw [h.classOf], h.others e hf, by rw [h.reference], by rw [h.features], h.activ e hm, h.transformation e hm, by rw [h.gain], by rw [h.selec]⟩

theorem modif_wired {create : List Name → Name → Outcome (List Name)} {g g' : Graph T} {m : Meta} {t t0 tb : Option T}
    (h : step create g (.modif m t) = .ok g') (hw : Wired g m t0 tb) : Wired g' m t tb ∧ ∀ e, e ∉ ents m → Same g g' e := by
  have d := distinct m
  by_cases hk : m.kind = .point ∨ m.kind = .relative
  · have h' : g.setModif m.feature m.modif m.op .position .jq t = .ok g' := by
      unfold step at h
      rcases hk with hk | hk <;> simpa [hk] using h
    obtain ⟨r, s⟩ := setModif_reads h' (by decide) d.mf (hw.point hk)
    refine ⟨?_, fun e he => s.same (fun h => he (h ▸ mem_feature m)) (fun h => he (h ▸ mem_modif m hk))⟩
    have sd := s.same d.df d.dm
    have st := s.same d.tf d.tm
    have sg := s.same d.gf d.gm
    have sb := s.same d.bf d.bm
    refine ⟨by rw [st.features, hw.features], by rw [s.reference, hw.reference], fun i => by rw [sd.plugged, hw.free], by rw [sg.plugged, hw.error],
      by rw [st.plugged, hw.gain], fun _ => r, fun hk => ?_, fun hk' => ?_, fun hk' => ?_, fun hk => by rw [sg.gain, s.selec]; exact hw.first hk,
      by rw [s.classOf]; exact hw.classes⟩
    · obtain ⟨r1, r2, r3, r4, r5, r6⟩ := hw.base hk
      exact ⟨by rw [s.inputs _ (by decide) (by decide), r1], by rw [s.inputs _ (by decide) (by decide), r2], by rw [sb.plugged, r3], by rw [sb.plugged, r4],
        by rw [sb.activ, r5], by rw [sb.transformation]; exact r6⟩
    · rw [hk'] at hk
      rcases hk with hk | hk <;> cases hk
    · rw [hk'] at hk
      rcases hk with hk | hk <;> cases hk
  · have h' : g' = g := by
      unfold step at h
      cases hk' : m.kind with
      | point => exact absurd (.inl hk') hk
      | relative => exact absurd (.inr hk') hk
      | com => simp only [hk', Outcome.ok.injEq] at h; exact h.symm
      | posture => simp only [hk', Outcome.ok.injEq] at h; exact h.symm
    subst h'
    refine ⟨⟨hw.features, hw.reference, hw.free, hw.error, hw.gain, fun h => absurd h hk, hw.base, hw.com, hw.posture, hw.first, hw.classes⟩,
      fun e _ => ⟨rfl, rfl, rfl, rfl, rfl, rfl, rfl, rfl⟩⟩

theorem modifBase_wired {create : List Name → Name → Outcome (List Name)} {g g' : Graph T} {m : Meta} {t t0 tb : Option T}
    (h : step create g (.modifBase m tb) = .ok g') (hw : Wired g m t t0) : Wired g' m t tb ∧ ∀ e, e ∉ ents m → Same g g' e := by
  have d := distinct m
  by_cases hk : m.kind = .relative
  · have h' : g.setModif m.feature m.modifBase m.base .positionRef .jqRef tb = .ok g' := by
      unfold step at h
      simpa [hk] using h
    obtain ⟨r, s⟩ := setModif_reads h' (by decide) d.bf (hw.base hk)
    refine ⟨?_, fun e he => s.same (fun h => he (h ▸ mem_feature m)) (fun h => he (h ▸ mem_base m hk))⟩
    have sd := s.same d.df d.db
    have st := s.same d.tf d.tb
    have sg := s.same d.gf d.gb
    have sm := s.same d.mf d.mb
    refine ⟨by rw [st.features, hw.features], by rw [s.reference, hw.reference], fun i => by rw [sd.plugged, hw.free], by rw [sg.plugged, hw.error],
      by rw [st.plugged, hw.gain], fun hk => ?_, fun _ => r, fun hk' => ?_, fun hk' => ?_, fun hk => by rw [sg.gain, s.selec]; exact hw.first hk,
      by rw [s.classOf]; exact hw.classes⟩
    · obtain ⟨r1, r2, r3, r4, r5, r6⟩ := hw.point hk
      exact ⟨by rw [s.inputs _ (by decide) (by decide), r1], by rw [s.inputs _ (by decide) (by decide), r2], by rw [sm.plugged, r3], by rw [sm.plugged, r4],
        by rw [sm.activ, r5], by rw [sm.transformation]; exact r6⟩
    · rw [hk'] at hk
      cases hk
    · rw [hk'] at hk
      cases hk
  · have h' : g' = g := by
      unfold step at h
      cases hk' : m.kind with
      | relative => exact absurd hk' hk
      | point => simp only [hk', Outcome.ok.injEq] at h; exact h.symm
      | com => simp only [hk', Outcome.ok.injEq] at h; exact h.symm
      | posture => simp only [hk', Outcome.ok.injEq] at h; exact h.symm
    subst h'
    refine ⟨⟨hw.features, hw.reference, hw.free, hw.error, hw.gain, hw.point, fun h => absurd h hk, hw.com, hw.posture, hw.first, hw.classes⟩,
      fun e _ => ⟨rfl, rfl, rfl, rfl, rfl, rfl, rfl, rfl⟩⟩

theorem make_wired {create : List Name → Name → Outcome (List Name)} {g g' : Graph T} {m : Meta} (h : step create g (.make m) = .ok g')
    (hu : ∀ e ∈ ents m, Unused g e) : Wired g' m none none ∧ ∀ e, e ∉ ents m → Same g g' e := by
  unfold step at h
  cases hk : m.kind with
  | point => simp only [hk] at h; exact makePoint_wired hk h hu
  | relative => simp only [hk] at h; exact makeRelative_wired hk h hu
  | com => simp only [hk] at h; exact makeCom_wired hk h hu
  | posture => simp only [hk] at h; exact makePosture_wired hk h hu

theorem run_snoc (create : List Name → Name → Outcome (List Name)) (g : Graph T) (os : List (Op T)) (o : Op T) :
    run create g (os ++ [o]) = (run create g os).bind fun g' => step create g' o := by
  induction os generalizing g with
  | nil =>
    simp only [List.nil_append, run, Outcome.bind_ok]
    cases step create g o <;> rfl
  | cons a os ih =>
    simp only [List.cons_append, run]
    cases step create g a with
    | ok g1 => simp only [Outcome.bind_ok]; exact ih g1
    | throw => rfl
    | ub => rfl

theorem made_append (os : List (Op T)) (o : Op T) : made (os ++ [o]) = made os ++ (match o with | .make m => [m] | _ => []) := by
  induction os with
  | nil => cases o <;> rfl
  | cons a os ih => cases a <;> simp [made, ih]

theorem proper_inv {create : List Name → Name → Outcome (List Name)} {rb : List Name} {os : List (Op T)} (hp : Proper os) :
    ∀ {g : Graph T}, run create (Graph.empty rb) os = .ok g →
      (∀ m ∈ made os, ∀ m' ∈ made os, m ≠ m' → Apart m m') ∧ (∀ m ∈ made os, Wired g m (setting m os) (settingBase m os)) ∧
      ∀ e, (∀ m ∈ made os, e ∉ ents m) → Unused g e := by
  induction hp with
  | nil =>
    intro g h
    simp only [run, Outcome.ok.injEq] at h
    subst h
    exact ⟨by simp [made], by simp [made], fun e _ => ⟨rfl, fun _ => rfl, rfl⟩⟩
  | @make os m hp ha ih =>
    intro g' h
    rw [run_snoc, Outcome.bind_eq_ok] at h
    obtain ⟨g, h1, h2⟩ := h
    obtain ⟨i1, i2, i3⟩ := ih h1
    have hne : ∀ m' ∈ made os, m ≠ m' := by
      rintro m' hm' rfl
      exact ha m hm' _ (mem_task m) (mem_task m)
    have ha' : ∀ m' ∈ made os, ∀ e ∈ ents m, e ∉ ents m' := fun m' hm' e he he' => ha m' hm' e he' he
    obtain ⟨w, s⟩ := make_wired h2 (fun e he => i3 e (fun m' hm' => ha' m' hm' e he))
    rw [made_append]
    refine ⟨?_, ?_, ?_⟩
    · intro a haa b hb hab
      simp only [List.mem_append, List.mem_singleton] at haa hb
      rcases haa with haa | rfl <;> rcases hb with hb | rfl
      · exact i1 a haa b hb hab
      · exact ha a haa
      · exact ha' b hb
      · exact absurd rfl hab
    · intro a haa
      simp only [List.mem_append, List.mem_singleton] at haa
      simp only [setting, settingBase, List.foldl_append, List.foldl_cons, List.foldl_nil]
      rcases haa with haa | rfl
      · rw [if_neg (hne a haa), if_neg (hne a haa)]
        exact (i2 a haa).same (fun e he => s e (ha a haa e he))
      · rw [if_pos rfl, if_pos rfl]
        exact w
    · intro e he
      have hs := s e (he m (by simp))
      obtain ⟨u1, u2, u3⟩ := i3 e (fun a haa => he a (by simp [haa]))
      exact ⟨by rw [hs.classOf, u1], fun i => by rw [hs.plugged, u2], by rw [hs.features, u3]⟩
  | @modif os m t hp hm ih =>
    intro g' h
    rw [run_snoc, Outcome.bind_eq_ok] at h
    obtain ⟨g, h1, h2⟩ := h
    obtain ⟨i1, i2, i3⟩ := ih h1
    obtain ⟨w, s⟩ := modif_wired h2 (i2 m hm)
    rw [made_append, List.append_nil]
    refine ⟨i1, ?_, ?_⟩
    · intro a haa
      simp only [setting, settingBase, List.foldl_append, List.foldl_cons, List.foldl_nil]
      by_cases hma : m = a
      · subst hma
        rw [if_pos rfl]
        exact w
      · rw [if_neg hma]
        exact (i2 a haa).same (fun e he => s e (i1 a haa m hm (fun h => hma h.symm) e he))
    · intro e he
      have hs := s e (he m hm)
      obtain ⟨u1, u2, u3⟩ := i3 e he
      exact ⟨by rw [hs.classOf, u1], fun i => by rw [hs.plugged, u2], by rw [hs.features, u3]⟩
  | @modifBase os m t hp hm ih =>
    intro g' h
    rw [run_snoc, Outcome.bind_eq_ok] at h
    obtain ⟨g, h1, h2⟩ := h
    obtain ⟨i1, i2, i3⟩ := ih h1
    obtain ⟨w, s⟩ := modifBase_wired h2 (i2 m hm)
    rw [made_append, List.append_nil]
    refine ⟨i1, ?_, ?_⟩
    · intro a haa
      simp only [setting, settingBase, List.foldl_append, List.foldl_cons, List.foldl_nil]
      by_cases hma : m = a
      · subst hma
        rw [if_pos rfl]
        exact w
      · rw [if_neg hma]
        exact (i2 a haa).same (fun e he => s e (i1 a haa m hm (fun h => hma h.symm) e he))
    · intro e he
      have hs := s e (he m hm)
      obtain ⟨u1, u2, u3⟩ := i3 e he
      exact ⟨by rw [hs.classOf, u1], fun i => by rw [hs.plugged, u2], by rw [hs.features, u3]⟩

/-- **The meta tasks of a script do not interfere.** After any script whose meta tasks have no common entity, in any order and with any
assignments of their attributes, each meta task is wired as it announces, with the transformations last assigned to it, and no other
entity was created. -/
theorem C134_wired (create : List Name → Name → Outcome (List Name)) (rb : List Name) (os : List (Op T)) (hp : Proper os) (g : Graph T)
    (h : run create (Graph.empty rb) os = .ok g) :
    (∀ m ∈ made os, Wired g m (setting m os) (settingBase m os)) ∧ ∀ e, (∀ m ∈ made os, e ∉ ents m) → g.classOf e = none := by
  obtain ⟨-, h2, h3⟩ := proper_inv hp h
  exact ⟨h2, fun e he => (h3 e he).classOf⟩

/-! ## The scripts run -/

/-- The robot has a signal of this short name. -/
def Has (rb : List Name) (s : Name) : Prop := ∃ x ∈ rb, MetaTask.lastPart x = s

/-- The command of the robot that creates an operational point: when it has not exactly the two signals, it makes them and keeps the others.
The name of a point has no colon, as the names of the signals are read after their last colon. -/
def Creates (create : List Name → Name → Outcome (List Name)) : Prop :=
  ∀ rb op, ':' ∉ op → MetaTask.opPointExist rb op = false → ∃ rb', create rb op = .ok rb' ∧ Has rb' op ∧ Has rb' ('J' :: op) ∧ ∀ s, Has rb s → Has rb' s

theorem has_any {rb : List Name} {s : Name} (h : Has rb s) : rb.any (fun x => MetaTask.lastPart x == s) = true := by
  obtain ⟨x, hx, rfl⟩ := h
  simp only [List.any_eq_true, beq_iff_eq]
  exact ⟨x, hx, rfl⟩

theorem filter_has {rb : List Name} {s : Name} (h : (rb.filter fun x => MetaTask.lastPart x == s).length ≠ 0) : Has rb s := by
  have : rb.filter (fun x => MetaTask.lastPart x == s) ≠ [] := by
    intro h0
    rw [h0] at h
    exact h rfl
  obtain ⟨x, hx⟩ := List.exists_mem_of_ne_nil _ this
  simp only [List.mem_filter, beq_iff_eq] at hx
  exact ⟨x, hx.1, hx.2⟩

theorem opPoint_ok {create : List Name → Name → Outcome (List Name)} (hc : Creates create) (rb : List Name) (op : Name)
    (ho : ':' ∉ op) : ∃ rb', MetaTask.createOpPoint create rb op = .ok rb' ∧ Has rb' op ∧ Has rb' ('J' :: op) ∧ ∀ s, Has rb s → Has rb' s := by
  unfold MetaTask.createOpPoint
  split_ifs with h
  · refine ⟨rb, rfl, ?_, ?_, fun _ h => h⟩
    · unfold MetaTask.opPointExist at h
      simp only [Bool.and_eq_true, beq_iff_eq] at h
      exact filter_has (by omega)
    · unfold MetaTask.opPointExist at h
      simp only [Bool.and_eq_true, beq_iff_eq] at h
      refine filter_has ?_
      intro h0
      rw [h0] at h
      simp at h
  · exact hc rb op ho (by simpa using h)

/-- What is known of the robot while a script runs. -/
structure Robot (os : List (Op T)) (rb : List Name) : Prop where
  com : Has rb ['c', 'o', 'm']
  jcom : Has rb ['J', 'c', 'o', 'm']
  position : Has rb ['p', 'o', 's', 'i', 't', 'i', 'o', 'n']
  op : ∀ m ∈ made os, m.kind = .point ∨ m.kind = .relative → Has rb m.op ∧ Has rb ('J' :: m.op)
  base : ∀ m ∈ made os, m.kind = .relative → Has rb m.base ∧ Has rb ('J' :: m.base)

theorem make_runs {create : List Name → Name → Outcome (List Name)} (hc : Creates create) {g : Graph T} {m : Meta} {os : List (Op T)}
    (hr : Robot os g.robot) (hu : ∀ e ∈ ents m, Unused g e) (ho : ':' ∉ m.op ∧ ':' ∉ m.base) : ∃ g', step create g (.make m) = .ok g' ∧ Robot (os ++ [.make m]) g'.robot := by
  have d := distinct m
  have u1 := (hu _ (mem_feature m)).classOf
  have u2 := (hu _ (mem_des m)).classOf
  have u3 := (hu _ (mem_task m)).classOf
  have u4 := (hu _ (mem_gain m)).classOf
  have grow : ∀ rb', (∀ s, Has g.robot s → Has rb' s) → (m.kind = .point ∨ m.kind = .relative → Has rb' m.op ∧ Has rb' ('J' :: m.op)) →
      (m.kind = .relative → Has rb' m.base ∧ Has rb' ('J' :: m.base)) → Robot (os ++ [.make m]) rb' := by
    intro rb' hg h1 h2
    refine ⟨hg _ hr.com, hg _ hr.jcom, hg _ hr.position, ?_, ?_⟩
    · intro a ha hk
      rw [made_append, List.mem_append] at ha
      rcases ha with ha | ha
      · exact ⟨hg _ (hr.op a ha hk).1, hg _ (hr.op a ha hk).2⟩
      · simp only [List.mem_singleton] at ha
        subst ha
        exact h1 hk
    · intro a ha hk
      rw [made_append, List.mem_append] at ha
      rcases ha with ha | ha
      · exact ⟨hg _ (hr.base a ha hk).1, hg _ (hr.base a ha hk).2⟩
      · simp only [List.mem_singleton] at ha
        subst ha
        exact h2 hk
  cases hk : m.kind with
  | point =>
    obtain ⟨rb', c1, c2, c3, c4⟩ := opPoint_ok hc g.robot m.op ho.1
    have u5 := (hu _ (mem_modif m (.inl hk))).classOf
    refine ⟨_, by
      simp only [step, hk, makePoint, c1, Outcome.bind_ok, Graph.createModif, Graph.create, u5, Graph.plugRobot, has_any c2, has_any c3, if_true,
        Graph.plug, Outcome.map_ok, Graph.createFeatures, upd, d.fm, d.dm, d.df, if_false, u1, u2, Graph.createTaskGain, d.tm, d.tf, d.td, d.gm, d.gf,
        d.gd, d.gt, u3, u4, Graph.setReference]
      rfl, ?_⟩
    exact grow rb' c4 (fun _ => ⟨c2, c3⟩) (fun h => by rw [hk] at h; cases h)
  | relative =>
    obtain ⟨rb1, c1, c2, c3, c4⟩ := opPoint_ok hc g.robot m.op ho.1
    obtain ⟨rb', b1, b2, b3, b4⟩ := opPoint_ok hc rb1 m.base ho.2
    have u5 := (hu _ (mem_modif m (.inr hk))).classOf
    have u6 := (hu _ (mem_base m hk)).classOf
    have c2' := b4 _ c2
    have c3' := b4 _ c3
    refine ⟨_, by
      simp only [step, hk, makeRelative, c1, b1, Outcome.bind_ok, Graph.createModif, Graph.create, u5, u6, Graph.plugRobot, has_any c2', has_any c3',
        has_any b2, has_any b3, if_true,
        Graph.plug, Outcome.map_ok, Graph.createFeatures, upd, d.fm, d.dm, d.df, if_false, u1, u2, Graph.createTaskGain, d.tm, d.tf, d.td, d.gm, d.gf,
        d.gd, d.gt, u3, u4, Graph.setReference, d.bm, d.fb, d.db, d.tb, d.gb]
      rfl, ?_⟩
    exact grow rb' (fun s h => b4 s (c4 s h)) (fun _ => ⟨c2', c3'⟩) (fun _ => ⟨b2, b3⟩)
  | com =>
    refine ⟨_, by
      simp only [step, hk, makeCom, Graph.createGeneric, Graph.create, u1, Outcome.bind_ok, upd, d.df, d.gf, d.gd, if_false, u2, u4, Graph.plugRobot,
        has_any hr.com, has_any hr.jcom, if_true, Graph.plug, Graph.setReference, d.tf, d.td, d.tg, u3, Outcome.map_ok]
      rfl, ?_⟩
    exact grow g.robot (fun _ h => h) (fun h => by rw [hk] at h; rcases h with h | h <;> cases h) (fun h => by rw [hk] at h; cases h)
  | posture =>
    refine ⟨_, by
      simp only [step, hk, makePosture, Graph.createGeneric, Graph.create, u1, Outcome.bind_ok, upd, d.df, d.gf, d.gd, if_false, u2, u4, Graph.plugRobot,
        has_any hr.position, if_true, Graph.plug, Graph.setReference, d.tf, d.td, d.tg, u3, Outcome.map_ok]
      rfl, ?_⟩
    exact grow g.robot (fun _ h => h) (fun h => by rw [hk] at h; rcases h with h | h <;> cases h) (fun h => by rw [hk] at h; cases h)

theorem setModif_runs {g : Graph T} {feature modif op : Name} {p j : Input} {t : Option T} (h1 : Has g.robot op) (h2 : Has g.robot ('J' :: op)) :
    ∃ g', g.setModif feature modif op p j t = .ok g' ∧ g'.robot = g.robot := by
  cases t with
  | none =>
    refine ⟨{ (g.plug (.robot op) feature p).plug (.robot ('J' :: op)) feature j with activ := upd g.activ modif false }, ?_, rfl⟩
    simp only [Graph.setModif, Graph.plugRobot, has_any h1, if_true, Outcome.bind_ok, Graph.plug, has_any h2, Outcome.map_ok]
  | some v =>
    refine ⟨_, rfl, ?_⟩
    dsimp only
    split_ifs <;> rfl

/-- **The scripts run**: with a robot that has the signals of the center of mass and of the posture and that makes the operational points
asked for, a script whose meta tasks have no common entity, on points whose names have no colon, raises no exception. -/
theorem C134_runs (create : List Name → Name → Outcome (List Name)) (hc : Creates create) (rb : List Name) (h1 : Has rb ['c', 'o', 'm'])
    (h2 : Has rb ['J', 'c', 'o', 'm']) (h3 : Has rb ['p', 'o', 's', 'i', 't', 'i', 'o', 'n']) (os : List (Op T)) (hp : Proper os)
    (ho : ∀ m ∈ made os, ':' ∉ m.op ∧ ':' ∉ m.base) : ∃ g, run create (Graph.empty rb) os = .ok g := by
  suffices h : ∃ g, run create (Graph.empty rb) os = .ok g ∧ Robot os g.robot from h.imp fun _ h => h.1
  induction hp with
  | nil => exact ⟨_, rfl, h1, h2, h3, by simp [made], by simp [made]⟩
  | @make os m hp ha ih =>
    obtain ⟨g, i1, i2⟩ := ih fun a h => ho a (by rw [made_append]; exact List.mem_append_left _ h)
    obtain ⟨-, -, k3⟩ := proper_inv hp i1
    obtain ⟨g', j1, j2⟩ := make_runs hc i2 (fun e he => k3 e (fun m' hm' he' => ha m' hm' e he' he))
      (ho m (by rw [made_append]; exact List.mem_append_right _ (List.mem_singleton.2 rfl)))
    exact ⟨g', by rw [run_snoc, i1, Outcome.bind_ok, j1], j2⟩
  | @modif os m t hp hm ih =>
    obtain ⟨g, i1, i2⟩ := ih fun a h => ho a (by rw [made_append]; exact List.mem_append_left _ h)
    suffices hs : ∃ g', step create g (.modif m t) = .ok g' ∧ g'.robot = g.robot by
      obtain ⟨g', j1, j2⟩ := hs
      refine ⟨g', by rw [run_snoc, i1, Outcome.bind_ok, j1], ?_⟩
      rw [j2]
      exact ⟨i2.com, i2.jcom, i2.position, by rw [made_append, List.append_nil]; exact i2.op, by rw [made_append, List.append_nil]; exact i2.base⟩
    cases hk : m.kind with
    | point =>
      simp only [step, hk]
      exact setModif_runs (i2.op m hm (.inl hk)).1 (i2.op m hm (.inl hk)).2
    | relative =>
      simp only [step, hk]
      exact setModif_runs (i2.op m hm (.inr hk)).1 (i2.op m hm (.inr hk)).2
    | com => exact ⟨g, by simp only [step, hk], rfl⟩
    | posture => exact ⟨g, by simp only [step, hk], rfl⟩
  | @modifBase os m t hp hm ih =>
    obtain ⟨g, i1, i2⟩ := ih fun a h => ho a (by rw [made_append]; exact List.mem_append_left _ h)
    suffices hs : ∃ g', step create g (.modifBase m t) = .ok g' ∧ g'.robot = g.robot by
      obtain ⟨g', j1, j2⟩ := hs
      refine ⟨g', by rw [run_snoc, i1, Outcome.bind_ok, j1], ?_⟩
      rw [j2]
      exact ⟨i2.com, i2.jcom, i2.position, by rw [made_append, List.append_nil]; exact i2.op, by rw [made_append, List.append_nil]; exact i2.base⟩
    cases hk : m.kind with
    | relative =>
      simp only [step, hk]
      exact setModif_runs (i2.base m hm hk).1 (i2.base m hm hk).2
    | point => exact ⟨g, by simp only [step, hk], rfl⟩
    | com => exact ⟨g, by simp only [step, hk], rfl⟩
    | posture => exact ⟨g, by simp only [step, hk], rfl⟩

/-! ## When two meta tasks have a common entity -/

theorem append_ref_ne {a b : Name} (h : a ≠ b ++ ['_', 'r', 'e', 'f']) (c : Name) : c ++ a ≠ c ++ b ++ ['_', 'r', 'e', 'f'] := by
  rw [List.append_assoc]
  exact fun h' => h (List.append_cancel_left h')

/-- Two meta tasks of class `MetaTask6d` have no common entity exactly when their names differ and neither is the other with `_ref`. -/
theorem C134_apart_points (m m' : Meta) (h : m.kind = .point) (h' : m'.kind = .point) :
    Apart m m' ↔ m.name ≠ m'.name ∧ m.name ≠ m'.name ++ ['_', 'r', 'e', 'f'] ∧ m'.name ≠ m.name ++ ['_', 'r', 'e', 'f'] := by
  constructor
  · intro ha
    refine ⟨fun e => ?_, fun e => ?_, fun e => ?_⟩
    · refine ha m.task (mem_task m) ?_
      rw [show m.task = m'.task by simp [Meta.task, e]]
      exact mem_task m'
    · refine ha m.feature (mem_feature m) ?_
      rw [show m.feature = m'.featureDes by simp [Meta.feature, Meta.featureDes, h, h', e]]
      exact mem_des m'
    · refine ha m.featureDes (mem_des m) ?_
      rw [show m.featureDes = m'.feature by simp [Meta.feature, Meta.featureDes, h, h', e]]
      exact mem_feature m'
  · rintro ⟨h1, h2, h3⟩ e he he'
    simp only [ents, h, h', List.mem_cons, List.not_mem_nil, or_false] at he he'
    rcases he with rfl | rfl | rfl | rfl | rfl <;> simp [h1, h2] at he'
    exact h3 he'.symm

/-- A name that neither ends as a reference nor begins as the names that the classes add. -/
structure Plain (n : Name) : Prop where
  ref : ¬ ['_', 'r', 'e', 'f'] <:+ n
  rel : ¬ ['R', 'e', 'l'] <+: n
  des : ¬ ['D', 'e', 's'] <+: n
  base : ¬ ['B', 'a', 's', 'e'] <+: n

theorem no_clash {a b p : Name} (hp : '_' ∉ p) (h : ¬ p <+: a) : a ++ ['_', 'r', 'e', 'f'] ≠ p ++ b := by
  intro e
  rcases List.append_eq_append_iff.mp e with ⟨c, h1, h2⟩ | ⟨c, h1, h2⟩
  · cases c with
    | nil =>
      rw [List.append_nil] at h1
      exact h (h1 ▸ List.prefix_rfl)
    | cons x c =>
      simp only [List.cons_append, List.cons.injEq] at h2
      rw [h1] at hp
      exact hp (by simp [← h2.1])
  · exact h ⟨c, h1.symm⟩

/-- All the forms of names. -/
def forms (n : Name) : List Name :=
  [['o', 'p', 'm', 'o', 'd', 'i', 'f'] ++ n, ['o', 'p', 'm', 'o', 'd', 'i', 'f', 'B', 'a', 's', 'e'] ++ n,
    ['f', 'e', 'a', 't', 'u', 'r', 'e'] ++ n, ['f', 'e', 'a', 't', 'u', 'r', 'e'] ++ n ++ ['_', 'r', 'e', 'f'],
    ['f', 'e', 'a', 't', 'u', 'r', 'e', 'R', 'e', 'l'] ++ n, ['f', 'e', 'a', 't', 'u', 'r', 'e', 'R', 'e', 'l'] ++ n ++ ['_', 'r', 'e', 'f'],
    ['f', 'e', 'a', 't', 'u', 'r', 'e', 'D', 'e', 's'] ++ n, ['t', 'a', 's', 'k'] ++ n, ['g', 'a', 'i', 'n'] ++ n]

theorem ents_forms {m : Meta} {e : Name} (h : e ∈ ents m) : e ∈ forms m.name := by
  unfold ents at h
  unfold forms
  cases hk : m.kind <;> simp only [hk, List.mem_cons, List.not_mem_nil, or_false] at h ⊢ <;> tauto

/-- Two meta tasks of any classes with different plain names have no common entity. -/
theorem C134_apart_plain (m m' : Meta) (h : Plain m.name) (h' : Plain m'.name) (hne : m.name ≠ m'.name) : Apart m m' := by
  have r1 : ∀ x, m.name ≠ x ++ ['_', 'r', 'e', 'f'] := fun x hx => h.ref ⟨x, hx.symm⟩
  have r2 : ∀ x, m'.name ≠ x ++ ['_', 'r', 'e', 'f'] := fun x hx => h'.ref ⟨x, hx.symm⟩
  have l1 : ∀ x, m.name ≠ 'R' :: 'e' :: 'l' :: x := fun x hx => h.rel ⟨x, hx.symm⟩
  have l2 : ∀ x, m'.name ≠ 'R' :: 'e' :: 'l' :: x := fun x hx => h'.rel ⟨x, hx.symm⟩
  have d1 : ∀ x, m.name ≠ 'D' :: 'e' :: 's' :: x := fun x hx => h.des ⟨x, hx.symm⟩
  have d2 : ∀ x, m'.name ≠ 'D' :: 'e' :: 's' :: x := fun x hx => h'.des ⟨x, hx.symm⟩
  have b1 : ∀ x, m.name ≠ 'B' :: 'a' :: 's' :: 'e' :: x := fun x hx => h.base ⟨x, hx.symm⟩
  have b2 : ∀ x, m'.name ≠ 'B' :: 'a' :: 's' :: 'e' :: x := fun x hx => h'.base ⟨x, hx.symm⟩
  have c1 : ∀ x, m.name ++ ['_', 'r', 'e', 'f'] ≠ 'R' :: 'e' :: 'l' :: x := fun x => no_clash (p := ['R', 'e', 'l']) (by decide) h.rel
  have c2 : ∀ x, m'.name ++ ['_', 'r', 'e', 'f'] ≠ 'R' :: 'e' :: 'l' :: x := fun x => no_clash (p := ['R', 'e', 'l']) (by decide) h'.rel
  have c3 : ∀ x, m.name ++ ['_', 'r', 'e', 'f'] ≠ 'D' :: 'e' :: 's' :: x := fun x => no_clash (p := ['D', 'e', 's']) (by decide) h.des
  have c4 : ∀ x, m'.name ++ ['_', 'r', 'e', 'f'] ≠ 'D' :: 'e' :: 's' :: x := fun x => no_clash (p := ['D', 'e', 's']) (by decide) h'.des
  intro e he he'
  replace he := ents_forms he
  replace he' := ents_forms he'
  simp only [forms, List.mem_cons, List.not_mem_nil, or_false] at he he'
  rcases he with rfl | rfl | rfl | rfl | rfl | rfl | rfl | rfl | rfl <;>
    simp [hne, r1, l1, d1, b1, c1, c3, (fun x => (r2 x).symm : ∀ x, x ++ ['_', 'r', 'e', 'f'] ≠ m'.name),
      (fun x => (l2 x).symm : ∀ x, 'R' :: 'e' :: 'l' :: x ≠ m'.name), (fun x => (d2 x).symm : ∀ x, 'D' :: 'e' :: 's' :: x ≠ m'.name),
      (fun x => (b2 x).symm : ∀ x, 'B' :: 'a' :: 's' :: 'e' :: x ≠ m'.name),
      (fun x => (c2 x).symm : ∀ x, 'R' :: 'e' :: 'l' :: x ≠ m'.name ++ ['_', 'r', 'e', 'f']),
      (fun x => (c4 x).symm : ∀ x, 'D' :: 'e' :: 's' :: x ≠ m'.name ++ ['_', 'r', 'e', 'f'])] at he'

/-! ## What happens otherwise -/

/-- A robot that makes the operational points asked for. -/
def obliging (rb : List Name) (op : Name) : Outcome (List Name) := .ok (rb ++ [op, 'J' :: op])

/-- A script that makes the same meta task twice: the task has its feature twice. -/
theorem C134_twice_counterexample :
    (run obliging (Graph.empty [] : Graph Nat) [.make ⟨.point, ['a'], ['h'], []⟩, .make ⟨.point, ['a'], ['h'], []⟩]).map
      (fun g => g.features ['t', 'a', 's', 'k', 'a']) =
      .ok [['f', 'e', 'a', 't', 'u', 'r', 'e', 'a'], ['f', 'e', 'a', 't', 'u', 'r', 'e', 'a']] := by
  rfl

/-- Meta tasks named `a` and `a_ref`: the reference of the first is plugged on the operational point of the second. -/
theorem C134_ref_counterexample :
    (run obliging (Graph.empty [] : Graph Nat) [.make ⟨.point, ['a'], ['h'], []⟩, .make ⟨.point, ['a', '_', 'r', 'e', 'f'], ['k'], []⟩]).map
      (fun g => (g.reference ['f', 'e', 'a', 't', 'u', 'r', 'e', 'a'],
        g.plugged ['f', 'e', 'a', 't', 'u', 'r', 'e', 'a', '_', 'r', 'e', 'f'] .position)) =
      .ok (some ['f', 'e', 'a', 't', 'u', 'r', 'e', 'a', '_', 'r', 'e', 'f'], some (.robot ['k'])) := by
  rfl

/-- A relative meta task named `a` and a meta task named `Basea` share a modifier: once the second is displaced, the displacement of the
base of the first is ignored, as its feature still reads the robot. -/
theorem C134_base_counterexample :
    (run obliging (Graph.empty [] : Graph Nat) [.make ⟨.relative, ['a'], ['h'], ['k']⟩, .make ⟨.point, ['B', 'a', 's', 'e', 'a'], ['l'], []⟩,
      .modif ⟨.point, ['B', 'a', 's', 'e', 'a'], ['l'], []⟩ (some 1), .modifBase ⟨.relative, ['a'], ['h'], ['k']⟩ (some 2)]).map
      (fun g => (g.plugged ['f', 'e', 'a', 't', 'u', 'r', 'e', 'R', 'e', 'l', 'a'] .positionRef,
        g.transformation ['o', 'p', 'm', 'o', 'd', 'i', 'f', 'B', 'a', 's', 'e', 'a'])) = .ok (some (.robot ['k']), some 2) := by
  rfl

/-- A relative meta task named `a` and a meta task named `Rela` cannot both be made: the feature exists with another class. -/
theorem C134_class_counterexample :
    run obliging (Graph.empty [] : Graph Nat) [.make ⟨.relative, ['a'], ['h'], ['k']⟩, .make ⟨.point, ['R', 'e', 'l', 'a'], ['l'], []⟩] = .throw := by
  rfl

theorem lastPart_self (n : Name) (h : ':' ∉ n) : MetaTask.lastPart n = n := by
  cases n with
  | nil => rfl
  | cons c cs =>
    simp only [List.mem_cons, not_or] at h
    rw [MetaTask.lastPart, if_neg (fun e => h.1 e.symm), if_neg (by simpa using h.2)]

/-- A robot and a script that meet the hypotheses. -/
example : Creates obliging ∧
    Proper [Op.make ⟨.point, ['a'], ['h'], []⟩, .make ⟨.com, ['c', 'o', 'm'], [], []⟩, .modif ⟨.point, ['a'], ['h'], []⟩ (some 1)] := by
  refine ⟨?_, ?_⟩
  · intro rb op ho _
    refine ⟨_, rfl, ⟨op, by simp, lastPart_self op ho⟩, ⟨'J' :: op, by simp, lastPart_self _ ?_⟩, fun s ⟨x, hx, h⟩ => ⟨x, by simp [hx], h⟩⟩
    simpa using ho
  · exact .modif (os := [Op.make ⟨.point, ['a'], ['h'], []⟩, .make ⟨.com, ['c', 'o', 'm'], [], []⟩]) _ _
      (.make (os := [Op.make ⟨.point, ['a'], ['h'], []⟩]) _ (.make (os := []) _ .nil (by simp [made]))
        (by
          intro m' hm'
          simp only [made, List.mem_singleton] at hm'
          subst hm'
          unfold Apart
          decide))
      (by simp [made])

end Verif.Wiring
