import Verif.RobotUtils.TablesModel
import Verif.Common.Lists

/-!
# Properties of mimic joints (C75), the robot registry (C76), limits and force sensors (C77)
-/
set_option linter.unusedSimpArgs false

namespace Verif.RobotUtils

open SMap

/-! ### C75: mimic joints -/

/-- The children of a tree. -/
def Tree.children : Tree → List (String × Tree)
  | .node _ cs => cs

mutual
/-- No descendant is called `name` or `mimic`. -/
def Tree.Plain : Tree → Prop
  | .node _ cs => PlainList cs
/-- The same for a list of children. -/
def PlainList : List (String × Tree) → Prop
  | [] => True
  | (tag, t) :: cs => tag ≠ "name" ∧ tag ≠ "mimic" ∧ t.Plain ∧ PlainList cs
end

/-- The element of a joint called `name`: its attributes come first, one of them is the name, and below it only the
mimic elements themselves are called `mimic` and nothing else is called `name`. -/
def IsJoint (name : String) (t : Tree) : Prop :=
  ∃ d d' pre post rest, t = .node d (("<xmlattr>", .node d' (pre ++ ("name", .node name []) :: post)) :: rest) ∧
    (∀ a ∈ pre, a.1 ≠ "name" ∧ a.2.children = []) ∧ (∀ a ∈ post, a.1 ≠ "name" ∧ a.2.children = []) ∧
    (∀ c ∈ rest, c.2.Plain)

/-- What should be found: for each joint, in the order of the document, its name once per `mimic` element. -/
inductive Describes : Tree → List String → Prop where
  | leaf (d : String) : Describes (.node d []) []
  | joint {d : String} {name : String} {t : Tree} {cs : List (String × Tree)} {l : List String} :
      IsJoint name t → Describes (.node d cs) l →
      Describes (.node d (("joint", t) :: cs)) (List.replicate ((t.children.filter fun c => c.1 = "mimic").length) name ++ l)
  | other {d tag : String} {t : Tree} {cs : List (String × Tree)} {l l' : List String} :
      tag ≠ "joint" → Describes t l → Describes (.node d cs) l' → Describes (.node d ((tag, t) :: cs)) (l ++ l')

mutual
theorem goThrough_plain (s : Mimics) (stage : Nat) (h3 : stage ≠ 3) : ∀ t : Tree, t.Plain → goThrough s stage t = s
  | .node _ [], _ => by simp [goThrough, h3]
  | .node _ (c :: cs), h => by
    rw [goThrough]
    exact goChildren_plain s stage h3 (c :: cs) (by simpa [Tree.Plain] using h)
theorem goChildren_plain (s : Mimics) (stage : Nat) (h3 : stage ≠ 3) :
    ∀ cs : List (String × Tree), PlainList cs → goChildren s stage cs = s
  | [], _ => by simp [goChildren]
  | (tag, t) :: cs, h => by
    rw [PlainList] at h
    have hs : newStage stage tag ≠ 3 := by
      unfold newStage
      rw [if_neg h.1]
      split
      · omega
      · split
        · split <;> omega
        · rw [if_neg h.2.1]
          omega
    rw [goChildren, if_neg (by simp [h.2.1])]
    rw [goThrough_plain s _ hs t h.2.2.1, goChildren_plain s stage h3 cs h.2.2.2]
end

theorem goThrough_leaf (s : Mimics) (stage : Nat) (h3 : stage ≠ 3) (t : Tree) (h : t.children = []) :
    goThrough s stage t = s := by
  obtain ⟨d, cs⟩ := t
  simp only [Tree.children] at h
  subst h
  simp [goThrough, h3]

theorem goChildren_append (s : Mimics) (stage : Nat) (a b : List (String × Tree)) :
    goChildren s stage (a ++ b) = goChildren (goChildren s stage a) stage b := by
  induction a generalizing s with
  | nil => simp [goChildren]
  | cons c a ih =>
    obtain ⟨tag, t⟩ := c
    rw [List.cons_append, goChildren, ih, goChildren]

theorem goChildren_attrs (s : Mimics) (l : List (String × Tree)) (h : ∀ a ∈ l, a.1 ≠ "name" ∧ a.2.children = []) :
    goChildren s 2 l = s := by
  induction l with
  | nil => simp [goChildren]
  | cons c l ih =>
    obtain ⟨tag, t⟩ := c
    have hc := h (tag, t) (List.mem_cons_self ..)
    have hs : newStage 2 tag ≠ 3 := by
      unfold newStage
      rw [if_neg hc.1]
      split
      · omega
      · split
        · simp
        · split <;> omega
    rw [goChildren]
    simp only [OfNat.ofNat_ne_one, and_false, if_false]
    rw [goThrough_leaf _ _ hs _ hc.2, ih (fun a ha => h a (List.mem_cons_of_mem _ ha))]

theorem goChildren_rest (s : Mimics) (l : List (String × Tree)) (h : ∀ c ∈ l, c.2.Plain) :
    goChildren s 1 l = { s with found := s.found ++ List.replicate ((l.filter fun c => c.1 = "mimic").length) s.current } := by
  induction l generalizing s with
  | nil => simp [goChildren]
  | cons c l ih =>
    obtain ⟨tag, t⟩ := c
    have hp := h (tag, t) (List.mem_cons_self ..)
    have hs : newStage 1 tag ≠ 3 := by
      unfold newStage
      split
      · omega
      · split
        · simp
        · split
          · simp
          · split <;> omega
    rw [goChildren]
    simp only [and_true]
    rw [goThrough_plain _ _ hs _ hp, ih _ (fun c hc => h c (List.mem_cons_of_mem _ hc))]
    by_cases e : tag = "mimic"
    · simp [e, List.replicate_succ]
    · simp [e]

theorem goThrough_joint (s : Mimics) (name : String) (t : Tree) (h : IsJoint name t) :
    goThrough s 1 t = ⟨name, s.found ++ List.replicate ((t.children.filter fun c => c.1 = "mimic").length) name⟩ := by
  obtain ⟨d, d', pre, post, rest, rfl, h1, h2, h3⟩ := h
  rw [goThrough, goChildren]
  have e1 : newStage 1 "<xmlattr>" = 2 := by decide
  have e2 : newStage 2 "name" = 3 := by decide
  have hx : goThrough s 2 (.node d' (pre ++ ("name", .node name []) :: post)) = { s with current := name } := by
    have : goThrough s 2 (.node d' (pre ++ ("name", .node name []) :: post)) =
        goChildren s 2 (pre ++ ("name", .node name []) :: post) := by
      cases pre <;> simp [goThrough]
    rw [this, goChildren_append, goChildren_attrs s pre h1, goChildren, e2]
    simp only [OfNat.ofNat_ne_one, and_false, if_false]
    rw [goChildren_attrs _ post h2]
    simp [goThrough]
  simp only [e1]
  rw [if_neg (by decide), hx, goChildren_rest _ _ h3]
  simp [Tree.children]

theorem goThrough_describes (t : Tree) (l : List String) (h : Describes t l) (s : Mimics) :
    (goThrough s 0 t).found = s.found ++ l := by
  induction h generalizing s with
  | leaf d => simp [goThrough]
  | @joint d name t cs l hj hd ih =>
    have : ∀ s, goThrough s 0 (.node d cs) = goChildren s 0 cs := by
      intro s; cases cs <;> simp [goThrough, goChildren]
    rw [goThrough, goChildren]
    simp only [OfNat.zero_ne_ofNat, zero_ne_one, and_false, if_false]
    rw [show newStage 0 "joint" = 1 by decide, goThrough_joint _ _ _ hj, ← this, ih]
    simp
  | @other d tag t cs l l' ht hd hd' ih ih' =>
    have : ∀ s, goThrough s 0 (.node d cs) = goChildren s 0 cs := by
      intro s; cases cs <;> simp [goThrough, goChildren]
    have h0 : newStage 0 tag = 0 := by
      unfold newStage
      rw [if_neg ht]
      simp
    rw [goThrough, goChildren]
    simp only [zero_ne_one, and_false, if_false]
    rw [h0, ← this, ih', ih]
    simp

/-- **C75.** For every robot description whose joints carry a name, the mimic joints reported are the names of the joints
that contain a `mimic` element, in the order of the document. -/
theorem C75_mimic_joints (t : Tree) (l : List String) (h : Describes t l) : mimicJoints t = l := by
  unfold mimicJoints
  rw [goThrough_describes t l h]
  rfl

/-- A description with a link, a plain joint and a mimic joint. -/
def sampleRobot : Tree := .node "" [("robot", .node "" [
  ("link", .node "" [("<xmlattr>", .node "" [("name", .node "base" [])])]),
  ("joint", .node "" [("<xmlattr>", .node "" [("name", .node "j1" []), ("type", .node "revolute" [])]),
    ("axis", .node "" [("<xmlattr>", .node "" [("xyz", .node "0 0 1" [])])])]),
  ("joint", .node "" [("<xmlattr>", .node "" [("type", .node "revolute" []), ("name", .node "j2" [])]),
    ("mimic", .node "" [("<xmlattr>", .node "" [("joint", .node "j1" [])])])])])]

/-- The hypothesis is met by this description. -/
example : Describes sampleRobot ["j2"] := by
  have hj1 : IsJoint "j1" (.node "" [("<xmlattr>", .node "" [("name", .node "j1" []), ("type", .node "revolute" [])]),
    ("axis", .node "" [("<xmlattr>", .node "" [("xyz", .node "0 0 1" [])])])]) :=
    ⟨"", "", [], [("type", .node "revolute" [])], [("axis", .node "" [("<xmlattr>", .node "" [("xyz", .node "0 0 1" [])])])],
      rfl, by simp, by simp [Tree.children], by simp [Tree.Plain, PlainList]⟩
  have hj2 : IsJoint "j2" (.node "" [("<xmlattr>", .node "" [("type", .node "revolute" []), ("name", .node "j2" [])]),
    ("mimic", .node "" [("<xmlattr>", .node "" [("joint", .node "j1" [])])])]) :=
    ⟨"", "", [("type", .node "revolute" [])], [], [("mimic", .node "" [("<xmlattr>", .node "" [("joint", .node "j1" [])])])],
      rfl, by simp [Tree.children], by simp, by simp [Tree.Plain, PlainList]⟩
  have hl : Describes (.node "" [("<xmlattr>", .node "" [("name", .node "base" [])])]) ([] ++ []) := by
    have h1 : Describes (.node "" [("name", .node "base" [])]) ([] ++ []) :=
      .other (by decide) (.leaf _) (.leaf _)
    exact .other (by decide) h1 (.leaf _)
  have h2 := Describes.other (d := "") (tag := "link") (by decide) hl
    (Describes.joint (d := "") hj1 (Describes.joint (d := "") hj2 (Describes.leaf "")))
  have h3 := Describes.other (d := "") (tag := "robot") (by decide) h2 (Describes.leaf "")
  simpa [Tree.children, sampleRobot] using h3

/-- **C75 needs the names.** A mimic joint without a name is reported under the name of the joint before it. -/
theorem C75_nameless_counterexample :
    mimicJoints (.node "" [("joint", .node "" [("<xmlattr>", .node "" [("name", .node "j1" [])])]),
      ("joint", .node "" [("mimic", .node "" [])])]) = ["j1"] := by
  simp [mimicJoints, goThrough, goChildren, newStage]

/-! ### C76: registry -/

theorem robotsAfter_snoc (names : List String) (n : String) :
    robotsAfter (names ++ [n]) = (createRobot (robotsAfter names) n).2 := by simp [robotsAfter]

theorem find_robots (names : List String) :
    (∀ n, (find n (robotsAfter names).robots).isSome ↔ n ∈ names) ∧
    (∀ n k, find n (robotsAfter names).robots = some k → k < (robotsAfter names).next) ∧
    (∀ n n' k, find n (robotsAfter names).robots = some k → find n' (robotsAfter names).robots = some k → n = n') ∧
    Sorted (robotsAfter names).robots := by
  induction names using snoc_induction with
  | nil => simp [robotsAfter, find, Sorted]
  | snoc l a ih =>
    obtain ⟨i1, i2, i3, i4⟩ := ih
    rw [robotsAfter_snoc]
    unfold createRobot
    split
    · rename_i hnone
      refine ⟨?_, ?_, ?_, i4.put _ _⟩
      · intro n
        simp only [find_put, List.mem_append, List.mem_singleton]
        split
        · simp_all
        · rw [i1]; simp_all
      · intro n k
        simp only [find_put]
        split
        · intro h; simp only [Option.some.injEq] at h; omega
        · intro h; have := i2 n k h; omega
      · intro n n' k
        simp only [find_put]
        split
        · split
          · intro _ _; simp_all
          · intro h h'
            have := i2 n' k h'
            simp only [Option.some.injEq] at h
            omega
        · split
          · intro h h'
            have := i2 n k h
            simp only [Option.some.injEq] at h'
            omega
          · exact i3 n n' k
    · rename_i v hsome
      refine ⟨?_, i2, i3, i4⟩
      intro n
      simp only [List.mem_append, List.mem_singleton]
      rw [i1]
      constructor
      · exact Or.inl
      · rintro (h | rfl)
        · exact h
        · rw [← i1, hsome]; rfl

theorem find_robots_append (l l' : List String) (n : String) (k : Nat)
    (h : find n (robotsAfter l).robots = some k) : find n (robotsAfter (l ++ l')).robots = some k := by
  induction l' using snoc_induction with
  | nil => simpa using h
  | snoc m a ih =>
    rw [← List.append_assoc, robotsAfter_snoc]
    unfold createRobot
    split
    · rename_i hnone
      rw [find_put, if_neg, ih]
      rintro rfl
      rw [ih] at hnone
      simp at hnone
    · exact ih

/-- **C76.** A robot is created exactly the first time its name is given; from then on, whatever else is created, the
name gives that same object, and a second creation gives nothing. -/
theorem C76_create_once (before after : List String) (n : String) :
    (n ∈ before → (createRobot (robotsAfter before) n).1 = none) ∧
    (n ∉ before → ∃ k, (createRobot (robotsAfter before) n).1 = some k ∧
      getRobot (robotsAfter (before ++ n :: after)) n = some k) := by
  obtain ⟨i1, -, -, -⟩ := find_robots before
  constructor
  · intro h
    have := (i1 n).mpr h
    unfold createRobot
    split
    · rename_i hn; rw [hn] at this; simp at this
    · rfl
  · intro h
    have hn : find n (robotsAfter before).robots = none := by
      have := mt (i1 n).mp h
      simpa using this
    refine ⟨(robotsAfter before).next, by unfold createRobot; rw [hn], ?_⟩
    have : find n (robotsAfter (before ++ [n])).robots = some (robotsAfter before).next := by
      rw [robotsAfter_snoc]
      unfold createRobot
      rw [hn]
      simp [find_put]
    have := find_robots_append _ after n _ this
    simpa [getRobot] using this

example : "r2" ∉ ["r1", "r3", "r1"] ∧ "r1" ∈ ["r1", "r3", "r1"] := by decide

/-- **C76.** Robots of different names are different objects; a name is known exactly when it was created; the list of
robots holds each name created once, in increasing order. -/
theorem C76_registry (names : List String) :
    (∀ n n', getRobot (robotsAfter names) n = getRobot (robotsAfter names) n' → n ∈ names → n = n') ∧
    (∀ n, isRobot (robotsAfter names) n = true ↔ n ∈ names) ∧
    (∀ n, getRobot (robotsAfter names) n = none ↔ n ∉ names) ∧
    (listRobots (robotsAfter names)).Pairwise (· < ·) ∧
    (∀ n, n ∈ listRobots (robotsAfter names) ↔ n ∈ names) := by
  obtain ⟨i1, -, i3, i4⟩ := find_robots names
  refine ⟨?_, i1, ?_, ?_, ?_⟩
  · intro n n' h hn
    have := (i1 n).mpr hn
    obtain ⟨k, hk⟩ := Option.isSome_iff_exists.mp this
    refine i3 n n' k hk ?_
    simp only [getRobot] at h
    rw [← h, hk]
  · intro n
    rw [← i1]
    simp [getRobot]
  · rw [listRobots, List.pairwise_map]
    exact i4
  · intro n
    rw [← i1, listRobots, List.mem_map]
    constructor
    · rintro ⟨p, hp, rfl⟩
      rw [(i4.mem_iff (k := p.1) (v := p.2)).mp hp]
      rfl
    · intro h
      obtain ⟨k, hk⟩ := Option.isSome_iff_exists.mp h
      exact ⟨(n, k), i4.mem_iff.mpr hk, rfl⟩

example : "r1" ∈ ["r2", "r1"] := by decide

/-! ### C77: limits and force sensors -/

/-- **C77.** The limits of a joint are those set last for its identifier, `(0, 0)` when none were. -/
theorem C77_joint_limits {F : Type} [Zero F] (sets : List (Int × F × F)) (id : Int) :
    jointLimits sets id = match (sets.filter fun s => s.1 = id).getLast? with
      | some s => s.2
      | none => (0, 0) := by
  have : ∀ m : SMap Int (F × F), find id (sets.foldl (fun m s => put s.1 s.2 m) m) =
      ((sets.filter fun s => s.1 = id).getLast?.map Prod.snd).or (find id m) := by
    intro m
    induction sets generalizing m with
    | nil => simp
    | cons s l ih =>
      rw [List.foldl_cons, ih, find_put]
      by_cases h : s.1 = id
      · rw [List.filter_cons_of_pos (by simpa using h), List.getLast?_cons, if_pos h.symm]
        cases List.getLast? (l.filter fun q => q.1 = id) <;> simp
      · rw [List.filter_cons_of_neg (by simpa using h), if_neg (fun e => h e.symm)]
  unfold jointLimits
  rw [this]
  cases (sets.filter fun s => s.1 = id).getLast? <;> simp [find]

example : jointLimits [(1, (-5 : Int), 5), (2, 0, 1), (1, -3, 3)] 1 = (-3, 3) := by decide

/-- The last identifier registered for a name. -/
def lastId (regs : List (String × Int)) (n : String) : Option Int := (regs.filter fun r => r.1 = n).getLast?.map Prod.snd

theorem lastId_snoc (l : List (String × Int)) (r : String × Int) (n : String) :
    lastId (l ++ [r]) n = if r.1 = n then some r.2 else lastId l n := by
  unfold lastId
  rw [List.filter_append]
  by_cases h : r.1 = n
  · rw [if_pos h, List.filter_cons_of_pos (by simpa using h)]; simp
  · rw [if_neg h, List.filter_cons_of_neg (by simpa using h)]; simp

/-- **C77.** The identifier of a hand or foot sensor is the one registered last under its short name, and is not
initialised when there was none; the name tables are those of property C44. -/
theorem C77_force_ids (regs : List (String × Int)) :
    (forcesAfter regs).rightFoot = lastId regs "rf" ∧ (forcesAfter regs).leftFoot = lastId regs "lf" ∧
    (forcesAfter regs).leftHand = lastId regs "lh" ∧ (forcesAfter regs).rightHand = lastId regs "rh" ∧
    (forcesAfter regs).names = register regs := by
  induction regs using snoc_induction with
  | nil => exact ⟨rfl, rfl, rfl, rfl, rfl⟩
  | snoc l r ih =>
    obtain ⟨i1, i2, i3, i4, i5⟩ := ih
    have e : forcesAfter (l ++ [r]) = setForce (forcesAfter l) r.1 r.2 := by simp [forcesAfter]
    have e' : register (l ++ [r]) = setNameToId (register l) r.1 r.2 := by simp [register]
    rw [e, e']
    simp only [lastId_snoc, ← i1, ← i2, ← i3, ← i4, ← i5]
    unfold setForce
    by_cases h1 : r.1 = "rf"
    · simp [h1]
    · by_cases h2 : r.1 = "lf"
      · simp [h2]
      · by_cases h3 : r.1 = "lh"
        · simp [h3]
        · by_cases h4 : r.1 = "rh"
          · simp [h4]
          · simp [h1, h2, h3, h4]

example : lastId [("rf", 2), ("lf", 1), ("rf", 0)] "rf" = some 0 := by decide

end Verif.RobotUtils
