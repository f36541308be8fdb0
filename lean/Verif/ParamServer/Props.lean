import Verif.ParamServer.Model
import Mathlib.Tactic.Common
import Mathlib.Data.Rat.Init
import Mathlib.Tactic.NormNum

/-!
# Properties of the parameter server (C105)
-/

namespace Verif.ParamServer

open PTree

/-! ### The tree -/

theorem child_change (f : PTree → PTree) (k k' : String) (cs : List (String × PTree)) :
    child k' (change f k cs) = if k' = k then some (f ((child k cs).getD .empty)) else child k' cs := by
  induction cs with
  | nil => by_cases h : k' = k <;> simp [change, child, h, Ne.symm, eq_comm (a := k)]
  | cons p cs ih =>
    obtain ⟨a, c⟩ := p
    by_cases ha : a = k
    · subst ha
      by_cases h : k' = a
      · simp [change, child, h]
      · simp [change, child, h, Ne.symm h]
    · simp only [change, ha, if_false, child, ih]
      by_cases h : a = k'
      · subst h
        simp [ha]
      · simp [h]

theorem lookup_empty (q : List String) : lookup q .empty = if q = [] then some "" else none := by
  cases q with
  | nil => rfl
  | cons k ks => simp [lookup, PTree.empty, children, child]

/-- **C105.** What can be read from a property tree after a value is put: the value at its own path, empty texts at the new nodes of the
path, and the former values everywhere else. -/
theorem C105_tree (v : String) (p q : List String) (t : PTree) :
    lookup q (store v p t) = if q = p then some v else if q <+: p ∧ lookup q t = none then some "" else lookup q t := by
  induction p generalizing q t with
  | nil =>
    obtain ⟨d, cs⟩ := t
    cases q with
    | nil => simp [lookup, store, data]
    | cons k ks => simp [lookup, store, children]
  | cons k ks ih =>
    obtain ⟨d, cs⟩ := t
    cases q with
    | nil => simp [lookup, store, data]
    | cons k' ks' =>
      simp only [lookup, store, children, child_change, List.cons.injEq, List.cons_prefix_cons]
      by_cases h : k' = k
      · subst h
        simp only [if_true, true_and, ih]
        cases hc : child k' cs with
        | some c => simp
        | none =>
          simp only [Option.getD_none, lookup_empty]
          by_cases he : ks' = ks
          · simp [he]
          · by_cases hp : ks' <+: ks
            · by_cases hn : ks' = []
              · subst hn; simp [he]
              · simp [he, hp, hn]
            · have hn : ks' ≠ [] := by rintro rfl; exact hp List.nil_prefix
              simp [he, hp, hn]
      · simp [h]

/-! ### The names -/

/-- The text that joins keys with separators. -/
def joined : List String → List Char
  | [] => []
  | [k] => k.toList
  | k :: ks => k.toList ++ '/' :: joined ks

theorem joined_keys (cs : List Char) (h : cs.getLast? ≠ some '/') : joined (keys cs) = cs := by
  have key : ∀ n, ∀ cs : List Char, cs.length ≤ n → cs.getLast? ≠ some '/' →
      joined (keys cs) = cs ∧ ∀ acc, joined (keys.go acc cs) = acc.reverse ++ cs := by
    intro n
    induction n with
    | zero =>
      intro cs hn h
      have : cs = [] := List.length_eq_zero_iff.1 (by omega)
      subst this
      exact ⟨by simp [keys, joined], fun acc => by simp [keys.go, joined]⟩
    | succ n ih =>
      intro cs hn h
      cases cs with
      | nil => exact ⟨by simp [keys, joined], fun acc => by simp [keys.go, joined]⟩
      | cons c cs =>
        have hn' : cs.length ≤ n := by simpa using hn
        have hcs : cs.getLast? ≠ some '/' := by
          intro e
          apply h
          rw [List.getLast?_cons, e]
          rfl
        obtain ⟨h1, h2⟩ := ih cs hn' hcs
        by_cases hc : c = '/'
        · have hne : cs ≠ [] := by
            rintro rfl
            simp [hc] at h
          have hk : keys cs ≠ [] := by
            intro e
            rw [e] at h1
            exact hne h1.symm
          obtain ⟨x, xs, hx⟩ := List.exists_cons_of_ne_nil hk
          rw [hx] at h1
          constructor
          · simp only [keys, hc, if_true, hx, joined, String.toList_empty, List.nil_append]
            rw [h1]
          · intro acc
            simp only [keys.go, hc, if_true, hx, joined, String.toList_ofList]
            rw [h1]
        · constructor
          · simp only [keys, hc, if_false, h2]
            simp
          · intro acc
            simp only [keys.go, hc, if_false, h2]
            simp
  exact (key _ cs le_rfl h).1

/-- **C105.** Two names that do not end with a separator are the same parameter only if they are equal. -/
theorem C105_names {a b : String} (ha : a.toList.getLast? ≠ some '/') (hb : b.toList.getLast? ≠ some '/')
    (h : keys a.toList = keys b.toList) : a = b := by
  have := congrArg joined h
  rw [joined_keys _ ha, joined_keys _ hb] at this
  exact String.toList_injective this

/-! ### The registry -/

theorem findRobot_onRobot (n m : String) (f : Robot → Robot) (l : List (String × Robot)) :
    findRobot m (onRobot n f l) = if m = n then (findRobot n l).map f else findRobot m l := by
  induction l with
  | nil => simp [findRobot, onRobot]
  | cons p l ih =>
    obtain ⟨a, r⟩ := p
    by_cases ha : a = n
    · subst ha
      by_cases h : m = a
      · simp [onRobot, findRobot, h]
      · simp [onRobot, findRobot, h, Ne.symm h]
    · simp only [onRobot, findRobot, ha, if_false, ih]
      by_cases h : a = m
      · subst h
        simp [ha]
      · simp [h]

theorem findRobot_ensure (n m : String) (l : List (String × Robot)) :
    findRobot m (ensure n l) = if m = n then some ((findRobot n l).getD Robot.new) else findRobot m l := by
  rw [ensure]
  cases h : findRobot n l with
  | some r =>
    by_cases hm : m = n
    · simp [hm, h]
    · simp [hm]
  | none =>
    have key : ∀ l : List (String × Robot), findRobot m (l ++ [(n, Robot.new)]) =
        match findRobot m l with
        | some r => some r
        | none => if n = m then some Robot.new else none := by
      intro l
      induction l with
      | nil => simp [findRobot]
      | cons p l ih =>
        obtain ⟨a, r⟩ := p
        by_cases ha : a = m
        · simp [findRobot, ha]
        · simp [findRobot, ha, ih]
    simp only [key]
    by_cases hm : m = n
    · subst hm
      simp [h]
    · simp only [hm, if_false, Ne.symm hm]
      cases findRobot m l <;> rfl

variable {E : Type} [DecidableEq E]

/-- Every robot that a server points to exists. -/
def Sound (w : World E) : Prop := ∀ e n, (w.servers e).robot = some n → findRobot n w.robots ≠ none

theorem sound_new : Sound (World.new : World E) := by
  intro e n h
  cases h

theorem onRobot_isSome {n m : String} {f : Robot → Robot} {l : List (String × Robot)} (h : findRobot m l ≠ none) :
    findRobot m (onRobot n f l) ≠ none := by
  rw [findRobot_onRobot]
  split_ifs with e
  · subst e
    simpa using h
  · exact h

theorem Sound.onRobot {w : World E} (h : Sound w) (n : String) (f : Robot → Robot) : Sound (⟨onRobot n f w.robots, w.servers⟩ : World E) :=
  fun e m hm => onRobot_isSome (h e m hm)

theorem Sound.guarded {w : World E} (h : Sound w) (e : E) (f : Robot → Robot) : Sound (w.guarded e f).1 := by
  rw [World.guarded]
  split_ifs
  · exact h
  · cases (w.servers e).robot with
    | none => exact h
    | some n => exact h.onRobot n f

theorem Sound.step {w : World E} (h : Sound w) (e : E) (c : Cmd) : Sound (step w e c).1 := by
  cases c with
  | init dt urdf n =>
    simp only [ParamServer.step]
    split_ifs
    · exact h
    · intro e' m hm
      refine onRobot_isSome ?_
      rw [findRobot_ensure]
      split_ifs with hmn
      · simp
      · simp only [World.withServer] at hm
        split_ifs at hm with he
        · simp at hm
          exact absurd hm.symm hmn
        · exact h e' m hm
  | initSimple dt =>
    simp only [ParamServer.step]
    split_ifs
    · exact h
    · split
      · rename_i n r hr
        intro e' m hm
        simp only [World.withServer] at hm ⊢
        split_ifs at hm with he
        · simp at hm
          subst hm
          simp [hr, findRobot]
        · exact h e' m hm
      · intro e' m hm
        simp only [World.withServer] at hm ⊢
        split_ifs at hm with he
        · exact h e m hm
        · exact h e' m hm
  | setParameter name text =>
    simp only [ParamServer.step]
    split_ifs
    · exact h
    · cases (w.servers e).robot with
      | none => exact h
      | some n =>
        simp only
        cases findRobot n w.robots with
        | none => exact h
        | some r =>
          simp only
          cases putParameter name text r.tree with
          | none => exact h
          | some t => exact h.onRobot n _
  | setImuJointName x => exact h.guarded e _
  | setFootFrameName x y => exact h.guarded e _
  | setHandFrameName x y => exact h.guarded e _
  | setRightFootSoleXYZ x => exact h.guarded e _
  | setRightFootForceSensorXYZ x => exact h.guarded e _
  | displayRobotUtil =>
    simp only [ParamServer.step]
    cases (w.servers e).robot <;> exact h
  | table c =>
    simp only [ParamServer.step]
    split_ifs
    · exact h
    · cases (w.servers e).robot with
      | none => exact h
      | some n =>
        simp only
        cases findRobot n w.robots with
        | none => exact h
        | some r =>
          simp only
          cases c.apply r.tables with
          | ok t => exact h.onRobot n _
          | throw => exact h
          | ub => exact h

theorem Sound.run {w : World E} (h : Sound w) (l : List (E × Cmd)) : Sound (run w l) := by
  induction l generalizing w with
  | nil => exact h
  | cons c l ih => exact ih (h.step c.1 c.2)

/-! ### Before the initialisation -/

/-- **C105.** Before its initialisation a server ignores the commands that set something, and refuses to give a parameter. -/
theorem C105_before {w : World E} {e : E} (h : (w.servers e).init = false) {T : Type} (decode : String → Option T) (name text : String) :
    step w e (.setParameter name text) = (w, .done) ∧ step w e (.setImuJointName text) = (w, .done) ∧
      step w e (.setFootFrameName name text) = (w, .done) ∧ step w e (.setHandFrameName name text) = (w, .done) ∧
      (∀ x, step w e (.setRightFootSoleXYZ x) = (w, .done)) ∧ (∀ x, step w e (.setRightFootForceSensorXYZ x) = (w, .done)) ∧
      getParameter decode w e name = .throw := by
  simp [step, h, World.guarded, getParameter]

/-- **C105.** An initialisation with a period that is not positive is ignored. -/
theorem C105_period (w : World E) (e : E) {dt : Rat} (h : dt ≤ 0) (urdf robot : String) :
    step w e (.init dt urdf robot) = (w, .done) ∧ step w e (.initSimple dt) = (w, .done) := by
  simp [step, h]

/-- **C105.** The display before the initialisation dereferences a null pointer. -/
theorem C105_display_counterexample (e : E) : (step (World.new : World E) e .displayRobotUtil).2 = .ub := rfl

/-- **C105.** An initialisation without robot name, when the program does not have exactly one robot, raises an exception and yet leaves a
new server initialised: the next parameter that is set or asked for dereferences a null pointer. -/
theorem C105_init_simple_counterexample {w : World E} {e : E} (hs : w.servers e = .new) (hr : w.robots.length ≠ 1) {dt : Rat} (hd : 0 < dt)
    {T : Type} (decode : String → Option T) (name text : String) :
    (step w e (.initSimple dt)).2 = .thrown ∧ (step (step w e (.initSimple dt)).1 e (.setParameter name text)).2 = .ub ∧
      getParameter decode (step w e (.initSimple dt)).1 e name = .ub := by
  have h : step w e (.initSimple dt) = (w.withServer e ⟨true, none⟩, .thrown) := by
    simp only [step, not_le.2 hd, if_false]
    split
    · rename_i n r hr'
      simp [hr'] at hr
    · simp [hs, Server.new]
  rw [h]
  simp [step, World.withServer, getParameter]

/-! ### Setting and reading -/

/-- A server is bound to a robot. -/
def Bound (w : World E) (e : E) (n : String) : Prop := w.servers e = ⟨true, some n⟩

/-- **C105.** After an initialisation the server is bound to the robot that it names; with exactly one robot and no name, to that one. -/
theorem C105_bound (w : World E) (e : E) {dt : Rat} (h : 0 < dt) (urdf n : String) :
    Bound (step w e (.init dt urdf n)).1 e n ∧ (∀ r, w.robots = [(n, r)] → Bound (step w e (.initSimple dt)).1 e n) := by
  constructor
  · simp [Bound, step, not_le.2 h, World.withServer]
  · intro r hr
    simp only [step, not_le.2 h, if_false, hr, Bound, World.withServer, if_true]

/-- **C105.** A parameter that a server sets is read back by every server of the same robot. -/
theorem C105_set_get {w : World E} (hw : Sound w) {e e' : E} {n : String} (he : Bound w e n) (he' : Bound w e' n) {name text : String}
    (hn : name.toList.getLast? ≠ some '/') {T : Type} {decode : String → Option T} {v : T} (hv : decode text = some v) :
    (step w e (.setParameter name text)).2 = .done ∧ getParameter decode (step w e (.setParameter name text)).1 e' name = .ok v := by
  obtain ⟨r, hr⟩ := Option.ne_none_iff_exists'.1 (hw e n (by rw [he]))
  rw [Bound] at he he'
  have hp : putParameter name text r.tree = some (r.tree.store text (keys name.toList)) := by
    simp [putParameter, hn]
  have hstep : step w e (.setParameter name text) =
      (⟨onRobot n (fun x => { x with tree := r.tree.store text (keys name.toList) }) w.robots, w.servers⟩, .done) := by
    simp [step, he, hr, hp]
  rw [hstep]
  refine ⟨rfl, ?_⟩
  simp [getParameter, he', findRobot_onRobot, hr, C105_tree, hv]

/-- **C105.** A parameter of which neither the name nor an extension of it was ever set cannot be read: on a robot whose tree has no node
there, an exception is raised. -/
theorem C105_missing {w : World E} {e : E} {n : String} (he : Bound w e n) {r : Robot} (hr : findRobot n w.robots = some r) {name : String}
    (hm : r.tree.lookup (keys name.toList) = none) {T : Type} (decode : String → Option T) : getParameter decode w e name = .throw := by
  rw [Bound] at he
  simp [getParameter, he, hr, hm]

/-- The text at a name of a robot. -/
def textAt (w : World E) (n name : String) : Option String := (findRobot n w.robots).bind fun r => r.tree.lookup (keys name.toList)

theorem textAt_guarded (w : World E) (e : E) {f : Robot → Robot} (hf : ∀ r, (f r).tree = r.tree) (n name : String) :
    textAt (w.guarded e f).1 n name = textAt w n name := by
  rw [World.guarded]
  split_ifs
  · rfl
  · cases (w.servers e).robot with
    | none => rfl
    | some m =>
      simp only [textAt, findRobot_onRobot]
      split_ifs with h
      · subst h
        cases findRobot n w.robots <;> simp [hf]
      · rfl

/-- One command that does not set the parameter leaves its text. -/
theorem textAt_step {w : World E} (e : E) {c : Cmd} {n name text : String} (h : textAt w n name = some text)
    (hc : ∀ name' text', c = .setParameter name' text' → keys name'.toList ≠ keys name.toList) :
    textAt (step w e c).1 n name = some text := by
  cases c with
  | init dt urdf m =>
    simp only [step]
    split_ifs
    · exact h
    · simp only [textAt, findRobot_onRobot, findRobot_ensure] at h ⊢
      by_cases hnm : n = m
      · subst hnm
        cases hr : findRobot n w.robots with
        | none => simp [hr] at h
        | some r => simpa [hr] using h
      · simpa [hnm] using h
  | initSimple dt =>
    simp only [step]
    split_ifs
    · exact h
    · split <;> exact h
  | setParameter name' text' =>
    have hne := hc name' text' rfl
    simp only [step]
    split_ifs
    · exact h
    · cases (w.servers e).robot with
      | none => exact h
      | some m =>
        simp only
        cases hr : findRobot m w.robots with
        | none => exact h
        | some r =>
          simp only
          cases hp : putParameter name' text' r.tree with
          | none => exact h
          | some t =>
            have ht : t = r.tree.store text' (keys name'.toList) := by
              rw [putParameter] at hp
              split_ifs at hp
              cases hp
              rfl
            simp only [textAt, findRobot_onRobot] at h ⊢
            by_cases hnm : n = m
            · subst hnm
              simp only [hr, Option.bind_some] at h
              simp [hr, ht, C105_tree, Ne.symm hne, h]
            · simpa [hnm] using h
  | setImuJointName x =>
    simp only [step]
    rw [textAt_guarded]
    · exact h
    · intro r
      try split_ifs
      all_goals rfl
  | setFootFrameName x y =>
    simp only [step]
    rw [textAt_guarded]
    · exact h
    · intro r
      try split_ifs
      all_goals rfl
  | setHandFrameName x y =>
    simp only [step]
    rw [textAt_guarded]
    · exact h
    · intro r
      try split_ifs
      all_goals rfl
  | setRightFootSoleXYZ x =>
    simp only [step]
    rw [textAt_guarded]
    · exact h
    · intro r
      try split_ifs
      all_goals rfl
  | setRightFootForceSensorXYZ x =>
    simp only [step]
    rw [textAt_guarded]
    · exact h
    · intro r
      try split_ifs
      all_goals rfl
  | displayRobotUtil =>
    simp only [step]
    cases (w.servers e).robot <;> exact h
  | table c =>
    simp only [step]
    split_ifs
    · exact h
    · cases (w.servers e).robot with
      | none => exact h
      | some m =>
        simp only
        cases hr : findRobot m w.robots with
        | none => exact h
        | some r =>
          simp only
          cases c.apply r.tables with
          | ok t =>
            simp only [textAt, findRobot_onRobot] at h ⊢
            by_cases hnm : n = m
            · subst hnm
              simpa [hr] using h
            · simpa [hnm] using h
          | throw => exact h
          | ub => exact h

/-- **C105.** A parameter keeps its value: after any commands of any servers, none of which sets a parameter of that name, every server
that is then bound to the robot reads the value that was set, whether it was bound before or not. -/
theorem C105_kept {w : World E} (hw : Sound w) {e e' : E} {n : String} (he : Bound w e n) {name text : String}
    (hn : name.toList.getLast? ≠ some '/') (l : List (E × Cmd))
    (hl : ∀ c ∈ l, ∀ name' text', c.2 = .setParameter name' text' → keys name'.toList ≠ keys name.toList)
    (he' : Bound (run (step w e (.setParameter name text)).1 l) e' n) {T : Type} {decode : String → Option T} {v : T}
    (hv : decode text = some v) : getParameter decode (run (step w e (.setParameter name text)).1 l) e' name = .ok v := by
  obtain ⟨r, hr⟩ := Option.ne_none_iff_exists'.1 (hw e n (by rw [he]))
  have h0 : textAt (step w e (.setParameter name text)).1 n name = some text := by
    rw [Bound] at he
    have hp : putParameter name text r.tree = some (r.tree.store text (keys name.toList)) := by simp [putParameter, hn]
    simp [step, he, hr, hp, textAt, findRobot_onRobot, C105_tree]
  have key : ∀ (l : List (E × Cmd)) (w : World E), textAt w n name = some text →
      (∀ c ∈ l, ∀ name' text', c.2 = .setParameter name' text' → keys name'.toList ≠ keys name.toList) →
      textAt (run w l) n name = some text := by
    intro l
    induction l with
    | nil => exact fun w h _ => h
    | cons c l ih =>
      intro w h hc
      exact ih _ (textAt_step c.1 h (hc c List.mem_cons_self)) fun c' h' => hc c' (List.mem_cons_of_mem _ h')
  have h1 := key l _ h0 hl
  rw [Bound] at he'
  rw [getParameter, he']
  simp only [Bool.true_eq_false, if_false]
  rw [textAt] at h1
  cases h2 : findRobot n (run (step w e (.setParameter name text)).1 l).robots with
  | none => simp [h2] at h1
  | some r' =>
    simp only [h2, Option.bind_some] at h1
    simp [h1, hv]

/-- **C105.** Setting a parameter of one robot leaves the other robots unchanged. -/
theorem C105_robots {w : World E} {e : E} {n m : String} (he : Bound w e n) (hm : m ≠ n) (name text : String) :
    findRobot m (step w e (.setParameter name text)).1.robots = findRobot m w.robots := by
  rw [Bound] at he
  simp only [step, he]
  cases findRobot n w.robots with
  | none => simp
  | some r =>
    simp only
    cases putParameter name text r.tree with
    | none => simp
    | some t => simp [findRobot_onRobot, hm]

/-- **C105.** A name whose extension is set can be read as text although it was never set: it is the empty text. -/
theorem C105_prefix_counterexample {w : World E} (hw : Sound w) {e : E} {n : String} (he : Bound w e n) (hr : ∀ r, findRobot n w.robots = some r →
    r.tree.lookup ["a"] = none) (text : String) :
    getParameter some w e "a" = .throw ∧ getParameter some (step w e (.setParameter "a/b" text)).1 e "a" = .ok "" := by
  obtain ⟨r, hfr⟩ := Option.ne_none_iff_exists'.1 (hw e n (by rw [he]))
  have ha : keys "a".toList = ["a"] := by decide
  have hab : keys "a/b".toList = ["a", "b"] := by decide
  refine ⟨C105_missing he hfr (by rw [ha]; exact hr r hfr) some, ?_⟩
  rw [Bound] at he
  have hp : putParameter "a/b" text r.tree = some (r.tree.store text ["a", "b"]) := by
    have : "a/b".toList.getLast? ≠ some '/' := by decide
    simp only [putParameter, hab]
    simp [this]
  simp only [step, he, hfr, hp]
  simp only [Bool.true_eq_false, if_false]
  have hc := C105_tree text ["a", "b"] ["a"] r.tree
  rw [hr r hfr] at hc
  simp only [getParameter, he, ha, Bool.true_eq_false, if_false, findRobot_onRobot, if_true, hfr, Option.map_some, hc]
  simp [List.cons_prefix_cons]

/-- **C105.** Two names that differ by a separator at the end are the same parameter; a name with a separator at the end can be set only
when the parameter exists already. -/
theorem C105_separator_counterexample {w : World E} {e : E} {n : String} (he : Bound w e n) {r : Robot} (hr : findRobot n w.robots = some r)
    (text : String) : keys "a/".toList = keys "a".toList ∧
      (r.tree.lookup ["a"] = none → (step w e (.setParameter "a/" text)).2 = .ub) := by
  have ha : keys "a/".toList = ["a"] := by decide
  refine ⟨by decide, ?_⟩
  intro h
  rw [Bound] at he
  have hp : putParameter "a/" text r.tree = none := by
    have : "a/".toList.getLast? = some '/' := by decide
    rw [putParameter, ha, h, this]
    rfl
  simp [step, he, hr, hp]

/-- **C105.** The frame names: `Left` and `Right` are set, other names are ignored. -/
theorem C105_frames {w : World E} (hw : Sound w) {e : E} {n : String} (he : Bound w e n) (foot frame : String) :
    ∃ r r', findRobot n w.robots = some r ∧ findRobot n (step w e (.setFootFrameName foot frame)).1.robots = some r' ∧
      r'.leftFoot = (if foot = "Left" then frame else r.leftFoot) ∧ r'.rightFoot = (if foot = "Right" then frame else r.rightFoot) ∧
      r'.leftHand = r.leftHand ∧ r'.rightHand = r.rightHand ∧ r'.imu = r.imu ∧ r'.urdf = r.urdf ∧ r'.tree = r.tree := by
  obtain ⟨r, hfr⟩ := Option.ne_none_iff_exists'.1 (hw e n (by rw [he]))
  rw [Bound] at he
  refine ⟨r, _, hfr, by simp only [step, World.guarded, he, findRobot_onRobot, hfr, if_true, Option.map_some, Bool.true_eq_false, if_false]; rfl, ?_⟩
  by_cases h1 : foot = "Left"
  · simp [h1]
  · by_cases h2 : foot = "Right"
    · simp [h2]
    · simp [h1, h2]

/-- **C105.** The frame names of the hands likewise. -/
theorem C105_hands {w : World E} (hw : Sound w) {e : E} {n : String} (he : Bound w e n) (hand frame : String) :
    ∃ r, findRobot n w.robots = some r ∧ findRobot n (step w e (.setHandFrameName hand frame)).1.robots =
      some { r with leftHand := if hand = "Left" then frame else r.leftHand, rightHand := if hand = "Right" then frame else r.rightHand } := by
  obtain ⟨r, hfr⟩ := Option.ne_none_iff_exists'.1 (hw e n (by rw [he]))
  rw [Bound] at he
  refine ⟨r, hfr, ?_⟩
  simp only [step, World.guarded, he, findRobot_onRobot, hfr, if_true, Option.map_some, Bool.true_eq_false, if_false]
  by_cases h1 : hand = "Left"
  · simp [h1]
  · by_cases h2 : hand = "Right"
    · simp [h2]
    · simp [h1, h2]

/-- **C105.** The name of the joint of the inertial unit and the positions of the sole and of the force sensor: each command sets its own
value and nothing else. -/
theorem C105_values {w : World E} (hw : Sound w) {e : E} {n : String} (he : Bound w e n) (name : String) (x y : List Rat) :
    ∃ r, findRobot n w.robots = some r ∧ findRobot n (step w e (.setImuJointName name)).1.robots = some { r with imu := name } ∧
      findRobot n (step w e (.setRightFootSoleXYZ x)).1.robots = some { r with sole := x } ∧
      findRobot n (step w e (.setRightFootForceSensorXYZ y)).1.robots = some { r with sensor := y } := by
  obtain ⟨r, hfr⟩ := Option.ne_none_iff_exists'.1 (hw e n (by rw [he]))
  rw [Bound] at he
  refine ⟨r, hfr, ?_⟩
  simp [step, World.guarded, he, findRobot_onRobot, hfr]

/-- **C105.** An initialisation gives the robot the name of its model file, creates it when it is unknown, and changes no other robot. -/
theorem C105_init (w : World E) (e : E) {dt : Rat} (h : 0 < dt) (urdf n : String) :
    findRobot n (step w e (.init dt urdf n)).1.robots = some { (findRobot n w.robots).getD Robot.new with urdf := urdf } ∧
      ∀ m, m ≠ n → findRobot m (step w e (.init dt urdf n)).1.robots = findRobot m w.robots := by
  simp only [step, not_le.2 h, if_false, findRobot_onRobot, findRobot_ensure, if_true, Option.map_some]
  exact ⟨trivial, fun m hm => by simp [hm]⟩

/-- The servers of the other commands. -/
theorem servers_step (w : World E) (e : E) {c : Cmd} (h1 : ∀ dt u n, c ≠ .init dt u n) (h2 : ∀ dt, c ≠ .initSimple dt) :
    (step w e c).1.servers = w.servers := by
  have hg : ∀ f, (w.guarded e f).1.servers = w.servers := by
    intro f
    rw [World.guarded]
    split_ifs
    · rfl
    · cases (w.servers e).robot <;> rfl
  cases c with
  | init dt u n => exact absurd rfl (h1 dt u n)
  | initSimple dt => exact absurd rfl (h2 dt)
  | setParameter name text =>
    simp only [step]
    split_ifs
    · rfl
    · cases (w.servers e).robot with
      | none => rfl
      | some n =>
        simp only
        cases findRobot n w.robots with
        | none => rfl
        | some r =>
          simp only
          cases putParameter name text r.tree <;> rfl
  | setImuJointName x => exact hg _
  | setFootFrameName x y => exact hg _
  | setHandFrameName x y => exact hg _
  | setRightFootSoleXYZ x => exact hg _
  | setRightFootForceSensorXYZ x => exact hg _
  | displayRobotUtil =>
    simp only [step]
    cases (w.servers e).robot <;> rfl
  | table c =>
    simp only [step]
    split_ifs
    · rfl
    · cases (w.servers e).robot with
      | none => rfl
      | some n =>
        simp only
        cases findRobot n w.robots with
        | none => rfl
        | some r =>
          simp only
          cases c.apply r.tables <;> rfl

/-- **C105.** In a program in which no initialisation raised an exception, a server that is initialised has a robot, after any history: it
accepts every parameter whose name does not end with a separator. -/
theorem C105_safe (l : List (E × Cmd)) (hl : ∀ k (hk : k < l.length), (step (run World.new (l.take k)) l[k].1 l[k].2).2 ≠ .thrown) (e : E)
    (he : ((run (World.new : World E) l).servers e).init = true) :
    ∃ n, Bound (run (World.new : World E) l) e n ∧ ∀ name text, name.toList.getLast? ≠ some '/' →
      (step (run (World.new : World E) l) e (.setParameter name text)).2 = .done := by
  have key : ∀ k ≤ l.length, ∀ e, ((run (World.new : World E) (l.take k)).servers e).init = true →
      ∃ n, Bound (run (World.new : World E) (l.take k)) e n := by
    intro k
    induction k with
    | zero => intro _ e h; simp [run, World.new, Server.new] at h
    | succ k ih =>
      intro hk e h
      have hk' : k < l.length := hk
      have e1 : run (World.new : World E) (l.take (k + 1)) = (step (run World.new (l.take k)) l[k].1 l[k].2).1 := by
        rw [List.take_succ_eq_append_getElem hk', run, List.foldl_append]
        rfl
      have ht := hl k hk'
      have ih' := ih hk'.le
      rw [e1] at h ⊢
      generalize run World.new (l.take k) = w at h ht ih' ⊢
      generalize l[k].1 = e0 at h ht ⊢
      generalize l[k].2 = c at h ht ⊢
      cases c with
      | init dt u n =>
        simp only [step, Bound] at h ⊢
        split_ifs at h ⊢ with hd
        · exact ih' e h
        · simp only [World.withServer] at h ⊢
          split_ifs at h ⊢ with hee
          · exact ⟨n, rfl⟩
          · exact ih' e h
      | initSimple dt =>
        simp only [step, Bound] at h ht ⊢
        split_ifs at h ht ⊢ with hd
        · exact ih' e h
        · split at h
          · rename_i n r hr
            simp only [World.withServer] at h ⊢
            split_ifs at h ⊢ with hee
            · exact ⟨n, rfl⟩
            · exact ih' e h
          · rename_i hr
            simp at ht
      | setParameter x y => rw [servers_step w e0 (by simp) (by simp)] at h; simp only [Bound]; rw [servers_step w e0 (by simp) (by simp)]; exact ih' e h
      | setImuJointName x => rw [servers_step w e0 (by simp) (by simp)] at h; simp only [Bound]; rw [servers_step w e0 (by simp) (by simp)]; exact ih' e h
      | setFootFrameName x y => rw [servers_step w e0 (by simp) (by simp)] at h; simp only [Bound]; rw [servers_step w e0 (by simp) (by simp)]; exact ih' e h
      | setHandFrameName x y => rw [servers_step w e0 (by simp) (by simp)] at h; simp only [Bound]; rw [servers_step w e0 (by simp) (by simp)]; exact ih' e h
      | setRightFootSoleXYZ x => rw [servers_step w e0 (by simp) (by simp)] at h; simp only [Bound]; rw [servers_step w e0 (by simp) (by simp)]; exact ih' e h
      | setRightFootForceSensorXYZ x => rw [servers_step w e0 (by simp) (by simp)] at h; simp only [Bound]; rw [servers_step w e0 (by simp) (by simp)]; exact ih' e h
      | displayRobotUtil => rw [servers_step w e0 (by simp) (by simp)] at h; simp only [Bound]; rw [servers_step w e0 (by simp) (by simp)]; exact ih' e h
      | table c => rw [servers_step w e0 (by simp) (by simp)] at h; simp only [Bound]; rw [servers_step w e0 (by simp) (by simp)]; exact ih' e h
  obtain ⟨n, hn⟩ := key l.length le_rfl e (by rwa [List.take_length])
  rw [List.take_length] at hn
  exact ⟨n, hn, fun name text hne => (C105_set_get (sound_new.run l) hn hn (decode := some) hne rfl).1⟩

/-! ### A case -/

/-- Two servers of the robot `r`: what the first one sets the second one reads. -/
theorem C105_case : Bound (run (World.new : World (Fin 2)) [(0, .init 1 "u" "r"), (1, .initSimple 1)]) 0 "r" ∧
    Bound (run (World.new : World (Fin 2)) [(0, .init 1 "u" "r"), (1, .initSimple 1)]) 1 "r" ∧
    getParameter some (run (World.new : World (Fin 2)) [(0, .init 1 "u" "r"), (1, .initSimple 1), (0, .setParameter "a/b" "x"),
      (0, .setParameter "a/c" "y")]) 1 "a/b" = .ok "x" := by
  have hs : Sound (run (World.new : World (Fin 2)) [(0, .init 1 "u" "r"), (1, .initSimple 1)]) := sound_new.run _
  have hb : Bound (run (World.new : World (Fin 2)) [(0, .init 1 "u" "r"), (1, .initSimple 1)]) 0 "r" := by
    simp [run, step, World.new, ensure, findRobot, onRobot, Bound, World.withServer, not_le.2 (zero_lt_one : (0 : Rat) < 1)]
  have hb' : Bound (run (World.new : World (Fin 2)) [(0, .init 1 "u" "r"), (1, .initSimple 1)]) 1 "r" := by
    simp [run, step, World.new, ensure, findRobot, onRobot, Bound, World.withServer, not_le.2 (zero_lt_one : (0 : Rat) < 1)]
  refine ⟨hb, hb', ?_⟩
  refine C105_kept hs hb (by decide) [(0, .setParameter "a/c" "y")] ?_ ?_ rfl
  · intro c hc name' text' e
    simp only [List.mem_singleton] at hc
    subst hc
    cases e
    decide
  · have h1 : ∀ (w : World (Fin 2)) name text, (step w 0 (.setParameter name text)).1.servers = w.servers := by
      intro w name text
      simp only [step]
      split_ifs
      · rfl
      · split
        · rfl
        · split
          · rfl
          · split <;> rfl
    rw [Bound] at hb' ⊢
    simp only [run, List.foldl_cons, List.foldl_nil, h1] at hb' ⊢
    exact hb'

end Verif.ParamServer
