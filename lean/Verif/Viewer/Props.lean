import Verif.Viewer.Model

/-!
# C122: viewer helpers
-/

namespace Verif.Viewer

open Verif

/-! ### The log -/

section Log
variable {V : Type}

theorem filePath_inj {a b : Text} (h : filePath a = filePath b) : a = b := by
  unfold filePath at h
  have h := List.append_cancel_left h
  simp only [List.cons.injEq, true_and] at h
  exact List.append_cancel_right h

/-- The updates of an element among the calls. -/
def ofName (name : Text) (us : List (Update V)) : List (Update V) := us.filter fun u => u.name = name

/-- The text of the lines of calls. -/
def linesOf (str : V → Text) (us : List (Update V)) : Text :=
  (us.map fun u => line str u.time u.state).flatten

/-- What the log must hold after the calls `done`, on a disk with the files `disk`. -/
structure Holds (str : V → Text) (disk : Text → Option Text) (done : List (Update V)) (l : Log V) :
    Prop where
  opened : ∀ n, n ∈ l.opened ↔ ∃ u ∈ done, u.name = n
  file : ∀ n, (∃ u ∈ done, u.name = n) → l.disk (filePath n) = some (linesOf str (ofName n done))
  other : ∀ p, (∀ u ∈ done, p ≠ filePath u.name) → l.disk p = disk p
  shown : l.shown = (done.filter fun u => u.fails = false).map fun u => (u.name, u.state)

theorem linesOf_append (str : V → Text) (a b : List (Update V)) :
    linesOf str (a ++ b) = linesOf str a ++ linesOf str b := by
  simp [linesOf]

theorem Holds.update {str : V → Text} {disk : Text → Option Text} {done : List (Update V)} {l : Log V}
    (h : Holds str disk done l) (u : Update V) :
    Holds str disk (done ++ [u]) (l.update str u.fails u.time u.name u.state).1 := by
  obtain ⟨hop, hfi, hot, hsh⟩ := h
  have hl1 : linesOf str [u] = line str u.time u.state := by simp [linesOf]
  by_cases hm : u.name ∈ l.opened
  · have hex := (hop u.name).mp hm
    have hd : (l.update str u.fails u.time u.name u.state).1.disk =
        fun p => if p = filePath u.name then (l.disk p).map (· ++ line str u.time u.state)
          else l.disk p := by
      unfold Log.update
      rw [if_pos hm]
      cases u.fails <;> rfl
    refine ⟨?_, ?_, ?_, ?_⟩
    · intro n
      have : (l.update str u.fails u.time u.name u.state).1.opened = l.opened := by
        unfold Log.update
        rw [if_pos hm]
        cases u.fails <;> rfl
      rw [this, hop n]
      constructor
      · rintro ⟨v, hv, rfl⟩; exact ⟨v, by simp [hv], rfl⟩
      · rintro ⟨v, hv, rfl⟩
        rcases List.mem_append.mp hv with hv | hv
        · exact ⟨v, hv, rfl⟩
        · simp only [List.mem_singleton] at hv
          subst hv
          exact hex
    · intro n hn
      rw [hd]
      by_cases he : n = u.name
      · subst he
        simp only [if_true, hfi _ hex, Option.map_some, ofName, List.filter_append, linesOf_append,
          ← hl1]
        simp
      · have hne : filePath n ≠ filePath u.name := fun hc => he (filePath_inj hc)
        simp only [if_neg hne]
        have hn' : ∃ v ∈ done, v.name = n := by
          obtain ⟨v, hv, rfl⟩ := hn
          rcases List.mem_append.mp hv with hv | hv
          · exact ⟨v, hv, rfl⟩
          · simp only [List.mem_singleton] at hv
            subst hv
            exact absurd rfl he
        rw [hfi n hn']
        have : decide (u.name = n) = false := by simp; exact fun hc => he hc.symm
        simp [ofName, List.filter_append, this]
    · intro p hp
      rw [hd]
      have hne : p ≠ filePath u.name := hp u (by simp)
      simp only [if_neg hne]
      exact hot p fun v hv => hp v (by simp [hv])
    · unfold Log.update
      rw [if_pos hm]
      cases hf : u.fails <;> simp [hsh, List.filter_append, hf]
  · have hex : ¬ ∃ v ∈ done, v.name = u.name := fun hc => hm ((hop u.name).mpr hc)
    have hd : (l.update str u.fails u.time u.name u.state).1.disk =
        fun p => if p = filePath u.name then some (line str u.time u.state) else l.disk p := by
      unfold Log.update
      rw [if_neg hm]
      funext p
      cases u.fails <;> by_cases hp : p = filePath u.name <;> simp [hp]
    have hnone : ofName u.name done = [] := by
      unfold ofName
      rw [List.filter_eq_nil_iff]
      intro v hv hc
      simp only [decide_eq_true_eq] at hc
      exact hex ⟨v, hv, hc⟩
    refine ⟨?_, ?_, ?_, ?_⟩
    · intro n
      have : (l.update str u.fails u.time u.name u.state).1.opened = u.name :: l.opened := by
        unfold Log.update
        rw [if_neg hm]
        cases u.fails <;> rfl
      rw [this, List.mem_cons, hop n]
      constructor
      · rintro (rfl | ⟨v, hv, rfl⟩)
        · exact ⟨u, by simp, rfl⟩
        · exact ⟨v, by simp [hv], rfl⟩
      · rintro ⟨v, hv, rfl⟩
        rcases List.mem_append.mp hv with hv | hv
        · exact .inr ⟨v, hv, rfl⟩
        · simp only [List.mem_singleton] at hv
          subst hv
          exact .inl rfl
    · intro n hn
      rw [hd]
      by_cases he : n = u.name
      · subst he
        have : ofName u.name (done ++ [u]) = [u] := by
          rw [ofName, List.filter_append]
          simp only [ofName] at hnone
          rw [hnone]
          simp
        simp [this, hl1]
      · have hne : filePath n ≠ filePath u.name := fun hc => he (filePath_inj hc)
        simp only [if_neg hne]
        have hn' : ∃ v ∈ done, v.name = n := by
          obtain ⟨v, hv, rfl⟩ := hn
          rcases List.mem_append.mp hv with hv | hv
          · exact ⟨v, hv, rfl⟩
          · simp only [List.mem_singleton] at hv
            subst hv
            exact absurd rfl he
        rw [hfi n hn']
        have : decide (u.name = n) = false := by simp; exact fun hc => he hc.symm
        simp [ofName, List.filter_append, this]
    · intro p hp
      rw [hd]
      have hne : p ≠ filePath u.name := hp u (by simp)
      simp only [if_neg hne]
      exact hot p fun v hv => hp v (by simp [hv])
    · unfold Log.update
      rw [if_neg hm]
      cases hf : u.fails <;> simp [hsh, List.filter_append, hf]

theorem Holds.run {str : V → Text} {disk : Text → Option Text} (us : List (Update V)) :
    ∀ {done : List (Update V)} {l : Log V}, Holds str disk done l →
      Holds str disk (done ++ us) (l.run str us) := by
  induction us with
  | nil => intro done l h; simpa [Log.run] using h
  | cons u us ih =>
    intro done l h
    have := ih (h.update u)
    simpa [Log.run] using this

theorem holds_init (str : V → Text) (disk : Text → Option Text) :
    Holds str (Log.init (V := V) disk).disk [] (Log.init disk) := by
  refine ⟨by simp [Log.init], by simp, fun _ _ => rfl, rfl⟩

/-- C122. Whatever the disk held and whatever calls are made, the file of an element shown at least once holds
one line for each call about it, in order, and nothing else; the viewer receives every call in order, except
those in which it raises an exception itself. -/
theorem C122_log (str : V → Text) (disk : Text → Option Text) (us : List (Update V)) :
    (∀ n, (∃ u ∈ us, u.name = n) →
      ((Log.init disk).run str us).disk (filePath n) =
        some (((us.filter fun u => u.name = n).map fun u => line str u.time u.state).flatten)) ∧
    ((Log.init disk).run str us).shown =
      (us.filter fun u => u.fails = false).map fun u => (u.name, u.state) := by
  have h := Holds.run (str := str) us (holds_init str disk)
  rw [List.nil_append] at h
  exact ⟨fun n hn => h.file n hn, h.shown⟩

/-- C122. No log of an earlier run is left for an element that is not shown: its file does not exist; a file
that has nothing to do with the viewer keeps its content. -/
theorem C122_log_others (str : V → Text) (disk : Text → Option Text) (us : List (Update V)) :
    (∀ n, '/' ∉ n → (¬ ∃ u ∈ us, u.name = n) →
      ((Log.init disk).run str us).disk (filePath n) = none) ∧
    (∀ p, (∀ x, p ≠ tmpView ++ x) →
      ((Log.init disk).run str us).disk p = disk p) := by
  have h := Holds.run (str := str) us (holds_init str disk)
  rw [List.nil_append] at h
  constructor
  · intro n hn hno
    rw [h.other (filePath n)]
    · have hg : Globbed (filePath n) := by
        refine ⟨'_' :: n, ?_, ?_⟩
        · simp [hn]
        · rfl
      simp [Log.init, hg]
    · intro u hu hc
      exact hno ⟨u, hu, (filePath_inj hc).symm⟩
  · intro p hp
    rw [h.other p]
    · have hg : ¬ Globbed p := by
        rintro ⟨x, -, rfl⟩
        exact hp (x ++ dat) rfl
      simp [Log.init, hg]
    · rintro u - rfl
      exact hp ('_' :: (u.name ++ dat)) rfl

/-- C122. Making the log also removes files that are not logs of elements: every file of `/tmp` whose name
begins with `view` and ends with `.dat`. -/
theorem C122_log_removes_counterexample (disk : Text → Option Text) (x : Text) (hx : '/' ∉ x) :
    (Log.init (V := V) disk).disk (tmpView ++ 'p' :: 'o' :: 'r' :: 't' :: (x ++ dat)) = none ∧
    ∀ n, filePath n ≠ tmpView ++ 'p' :: 'o' :: 'r' :: 't' :: (x ++ dat) := by
  constructor
  · have hg : Globbed (tmpView ++ 'p' :: 'o' :: 'r' :: 't' :: (x ++ dat)) :=
      ⟨'p' :: 'o' :: 'r' :: 't' :: x, by simp [hx], rfl⟩
    simp only [Log.init]
    rw [if_pos hg]
  · intro n h
    rw [filePath] at h
    have h := List.append_cancel_left h
    simp at h

/-- The parts of a text between the separators. -/
def split (sep : Char) : Text → List Text
  | [] => [[]]
  | c :: cs =>
    if c = sep then [] :: split sep cs
    else match split sep cs with
      | [] => [[c]]
      | p :: ps => (c :: p) :: ps

theorem split_ne_nil (sep : Char) (s : Text) : split sep s ≠ [] := by
  cases s with
  | nil => simp [split]
  | cons c cs =>
    rw [split]
    split
    · simp
    · split <;> simp

theorem split_free (sep : Char) (x : Text) (hx : sep ∉ x) : split sep x = [x] := by
  induction x with
  | nil => rfl
  | cons c cs ih =>
    simp only [List.mem_cons, not_or] at hx
    have hc : c ≠ sep := fun h => hx.1 h.symm
    simp [split, hc, ih hx.2]

theorem split_append (sep : Char) (x rest : Text) (hx : sep ∉ x) :
    split sep (x ++ sep :: rest) = x :: split sep rest := by
  induction x with
  | nil => simp [split]
  | cons c cs ih =>
    simp only [List.mem_cons, not_or] at hx
    have hc : c ≠ sep := fun h => hx.1 h.symm
    simp [split, hc, ih hx.2]

theorem split_join (sep : Char) (l : List Text) (hl : l ≠ []) (hs : ∀ x ∈ l, sep ∉ x) :
    split sep (join sep l) = l := by
  induction l with
  | nil => exact absurd rfl hl
  | cons x l ih =>
    cases l with
    | nil => simpa [join] using split_free sep x (hs x (by simp))
    | cons y l =>
      have := ih (by simp) (fun z hz => hs z (by simp [hz]))
      rw [join, split_append sep x _ (hs x (by simp)), this]
      simp

theorem mem_join {sep c : Char} {l : List Text} (h : c ∈ join sep l) (hc : c ≠ sep) : ∃ x ∈ l, c ∈ x := by
  induction l with
  | nil => simp [join] at h
  | cons x l ih =>
    cases l with
    | nil => exact ⟨x, by simp, by simpa [join] using h⟩
    | cons y l =>
      rw [join] at h
      · rcases List.mem_append.mp h with h | h
        · exact ⟨x, by simp, h⟩
        · rcases List.mem_cons.mp h with h | h
          · exact absurd h hc
          · obtain ⟨z, hz, hcz⟩ := ih h
            exact ⟨z, by simp [hz], hcz⟩
      · simp

theorem split_lines (ls : List Text) (h : ∀ x ∈ ls, '\n' ∉ x) :
    split '\n' ((ls.map fun x => x ++ ['\n']).flatten) = ls ++ [[]] := by
  induction ls with
  | nil => rfl
  | cons x ls ih =>
    have := ih fun y hy => h y (by simp [hy])
    simp only [List.map_cons, List.flatten_cons, List.append_assoc, List.cons_append, List.nil_append]
    rw [split_append '\n' x _ (h x (by simp)), this]

/-- C122. The log can be read back. When the text of a number has neither tabulation nor end of line, cutting
the file at the ends of lines and each line at the tabulations gives the texts of the time and of the state of
each call about the element, in order, and an empty last line. -/
theorem C122_log_reads_back (str : V → Text) (hstr : ∀ v, '\t' ∉ str v ∧ '\n' ∉ str v)
    (disk : Text → Option Text) (us : List (Update V)) (n : Text) (hn : ∃ u ∈ us, u.name = n) :
    ∃ text, ((Log.init disk).run str us).disk (filePath n) = some text ∧
      (split '\n' text).dropLast.map (split '\t') =
        ((us.filter fun u => u.name = n).map fun u => str u.time :: u.state.map str) ∧
      (split '\n' text).getLast? = some [] := by
  refine ⟨_, (C122_log str disk us).1 n hn, ?_, ?_⟩
  all_goals
    have hl : ((us.filter fun u => u.name = n).map fun u => line str u.time u.state) =
        ((us.filter fun u => u.name = n).map fun u => join '\t' ((u.time :: u.state).map str)).map
          fun x => x ++ ['\n'] := by
      simp [line]
    rw [hl, split_lines]
  · simp only [List.dropLast_concat, List.map_map]
    apply List.map_congr_left
    intro u _
    simp only [Function.comp]
    rw [split_join]
    · simp
    · simp
    · intro x hx
      obtain ⟨v, -, rfl⟩ := List.mem_map.mp hx
      exact (hstr v).1
  · intro x hx
    obtain ⟨u, -, rfl⟩ := List.mem_map.mp hx
    intro hc
    obtain ⟨y, hy, hcy⟩ := mem_join hc (by decide)
    obtain ⟨v, -, rfl⟩ := List.mem_map.mp hy
    exact (hstr v).2 hcy
  · simp
  · intro x hx
    obtain ⟨u, -, rfl⟩ := List.mem_map.mp hx
    intro hc
    obtain ⟨y, hy, hcy⟩ := mem_join hc (by decide)
    obtain ⟨v, -, rfl⟩ := List.mem_map.mp hy
    exact (hstr v).2 hcy

/-- A case for the hypotheses: one digit per number. -/
def oneDigit (b : Bool) : Text := if b then ['1'] else ['0']

example : ∀ v, '\t' ∉ oneDigit v ∧ '\n' ∉ oneDigit v := by decide

example (disk : Text → Option Text) :
    ((Log.init disk).run oneDigit [⟨false, true, ['a'], [false]⟩, ⟨true, false, ['b'], []⟩,
      ⟨false, false, ['a'], [true, true]⟩]).disk (filePath ['a']) = some "1\t0\n0\t1\t1\n".toList := by
  rw [(C122_log oneDigit disk _).1 ['a'] ⟨⟨false, true, ['a'], [false]⟩, by simp, rfl⟩]
  decide

end Log

/-! ### The robot and its class -/

/-- C122. On a class that was never changed, when the viewer can be reached, a step of the robot is its own
step, then one message to the viewer, then the display; the same for a setting. Two nested calls suffice. -/
theorem C122_installed_once (e : Env) (i : Inst) (h1 : e.importOk = true) (h2 : e.clientOk = true)
    (h3 : e.dorefresh = false ∨ e.refreshOk = true) (d : Nat) :
    let r := addRobotViewer e Cls.new i
    r.2.viewer = .real ∧
    increment r.1 r.2 (d + 2) = some ([.stepped, .sent, .displayed], .ok ()) ∧
    setCfg r.1 r.2 (d + 2) = some ([.wasSet, .sent, .displayed], .ok ()) := by
  rcases e with ⟨a, b, c, sm, k, dr⟩
  rcases i with ⟨v, hl⟩
  simp only at h1 h2 h3
  subst h1 h2
  cases c <;> cases dr <;> simp at h3 <;>
    simp [addRobotViewer, Cls.new, increment, setCfg, call, refresh]

/-- C122. When the viewer cannot be imported or reached, a class that was never changed keeps its own step and
its own setting; the robot receives the viewer that does nothing. -/
theorem C122_no_viewer (e : Env) (i : Inst) (h : e.importOk = false ∨ e.clientOk = false) (d : Nat) :
    let r := addRobotViewer e Cls.new i
    r.2.viewer = .faked ∧
    increment r.1 r.2 (d + 1) = some ([.stepped], .ok ()) ∧
    setCfg r.1 r.2 (d + 1) = some ([.wasSet], .ok ()) := by
  rcases e with ⟨a, b, c, sm, k, dr⟩
  simp only at h
  rcases h with rfl | rfl
  · simp [addRobotViewer, Cls.new, increment, setCfg, call]
  · cases a <;> simp [addRobotViewer, Cls.new, increment, setCfg, call]

theorem call_forever (c : Cls) (i : Inst) (own : Ev) : ∀ d, call c i own (some .view) d (some .view) = none
  | 0 => rfl
  | d + 1 => by rw [call, call_forever c i own d]

/-- C122. The helper changes the class, not the robot, and keeps what it finds as the step without view: when
it is called twice for the same class (for two robots, or again for the same one), a step and a setting of any
robot of the class call themselves without end. -/
theorem C122_installed_twice_counterexample (e1 e2 : Env) (i1 i2 i : Inst)
    (h1 : e1.importOk = true) (h2 : e1.clientOk = true) (h3 : e2.importOk = true)
    (h4 : e2.clientOk = true) (depth : Nat) :
    let c := (addRobotViewer e2 (addRobotViewer e1 Cls.new i1).1 i2).1
    increment c i depth = none ∧ setCfg c i depth = none := by
  have hc : ((addRobotViewer e2 (addRobotViewer e1 Cls.new i1).1 i2).1).increment = some .view ∧
      ((addRobotViewer e2 (addRobotViewer e1 Cls.new i1).1 i2).1).incrementNoView = some .view ∧
      ((addRobotViewer e2 (addRobotViewer e1 Cls.new i1).1 i2).1).set = some .view ∧
      ((addRobotViewer e2 (addRobotViewer e1 Cls.new i1).1 i2).1).setNoView = some .view := by
    rcases e1 with ⟨a, b, c, sm, k, dr⟩
    rcases e2 with ⟨a', b', c', sm', k', dr'⟩
    simp only at h1 h2 h3 h4
    subst h1 h2 h3 h4
    cases c <;> cases dr <;> cases c' <;> cases dr' <;> simp [addRobotViewer, Cls.new]
  obtain ⟨ha, hb, hcc, hd⟩ := hc
  dsimp only
  refine ⟨?_, ?_⟩
  · rw [increment, ha, hb]; exact call_forever _ _ _ _
  · rw [setCfg, hcc, hd]; exact call_forever _ _ _ _

/-- C122. A second robot of the same class for which the viewer cannot be reached has the viewer that does
nothing and the changed step: its step is run, then an exception is raised, since it has no list of things to
display. -/
theorem C122_second_robot_counterexample (e1 e2 : Env) (i1 : Inst) (v : Client)
    (h1 : e1.importOk = true) (h2 : e1.clientOk = true)
    (h4 : e2.importOk = false ∨ e2.clientOk = false) (d : Nat) :
    let r := addRobotViewer e2 (addRobotViewer e1 Cls.new i1).1 ⟨v, false⟩
    increment r.1 r.2 (d + 2) = some ([.stepped], .throw) := by
  rcases e1 with ⟨a, b, c, sm, k, dr⟩
  rcases e2 with ⟨a', b', c', sm', k', dr'⟩
  simp only at h1 h2 h4
  subst h1 h2
  rcases h4 with rfl | rfl
  · cases c <;> cases dr <;> simp [addRobotViewer, Cls.new, increment, call, refresh]
  · cases a' <;> cases c <;> cases dr <;> simp [addRobotViewer, Cls.new, increment, call, refresh]

example : let e : Env := ⟨true, true, true, false, 10, true⟩
    increment (addRobotViewer e Cls.new ⟨.absent, false⟩).1 (addRobotViewer e Cls.new ⟨.absent, false⟩).2 7 =
      some ([.stepped, .sent, .displayed], .ok ()) := by decide

/-- C122. Only a robot called `robot_device` is sent under the name `hrp`; every other one is sent under its
own name. -/
theorem C122_sent_name (name : String) :
    sentName "robot_device" = "hrp" ∧ (name ≠ "robot_device" → sentName name = name) := by
  refine ⟨by decide, fun h => ?_⟩
  simp [sentName, h]

/-- C122. The first test of the names has no effect: a robot called `robot` is not sent as `hrp`. -/
theorem C122_sent_name_counterexample : sentName "robot" = "robot" := by decide

/-- C122. A state given as a tuple is sent as it is, followed by the zeros asked for. -/
theorem C122_state_tuple {V : Type} (zero : V) (extra : Nat) (l : List V) :
    ∃ r, stateFullSize zero extra (.tuple l) = .ok r ∧ r.length = l.length + extra ∧ r.take l.length = l ∧
      ∀ x ∈ r.drop l.length, x = zero := by
  refine ⟨_, rfl, by simp, by simp, ?_⟩
  intro x hx
  simp at hx
  exact hx.2

/-- C122. A state given as an array of at least two numbers cannot be sent with no zeros added, nor with a
number of zeros other than one or its own length; it is then sent without any added zero. -/
theorem C122_state_array_counterexample {V : Type} (zero : V) (extra : Nat) (l : List V) (hl : 2 ≤ l.length) :
    (extra ≠ 1 → extra ≠ l.length → stateFullSize zero extra (.array l) = .throw) ∧
    (extra = 1 ∨ extra = l.length → stateFullSize zero extra (.array l) = .ok l) := by
  have hx : ∀ x, l ≠ [x] := by rintro x rfl; simp at hl
  constructor
  · intro h1 h2
    rw [stateFullSize.eq_def]
    dsimp only
    rw [if_neg (by rintro (h | h) <;> contradiction)]
    split
    · rename_i x; exact absurd rfl (hx x)
    · rfl
  · intro h
    rw [stateFullSize.eq_def]
    dsimp only
    rw [if_pos h.symm]

/-- C122. An array of one number is sent as that many copies of it as zeros are asked for: nothing when none
is. -/
theorem C122_state_single_counterexample {V : Type} (zero x : V) (extra : Nat) :
    stateFullSize zero extra (.array [x]) = .ok (List.replicate extra x) := by
  unfold stateFullSize
  dsimp only
  split
  · rename_i h
    have : extra = 1 := by simpa using h
    subst this
    rfl
  · rfl

example : stateFullSize 0 2 (.tuple [5, 6, 7]) = .ok [5, 6, 7, 0, 0] ∧
    stateFullSize 0 10 (.array [5, 6, 7]) = .throw := by decide

/-- C122. The pinger sends 1, 2, 3, …: one value when it is made and one for each call. -/
theorem C122_pings (n k : Nat) (hk : k ≤ n) :
    (pings n).2.length = n + 1 ∧ (pings n).2[k]? = some (k + 1) := by
  have h : ∀ n, (pings n).1 = n + 1 ∧ (pings n).2 = (List.range (n + 1)).map (· + 1) := by
    intro n
    induction n with
    | zero => exact ⟨rfl, rfl⟩
    | succ n ih =>
      refine ⟨by simp [pings, pingCall, ih.1], ?_⟩
      rw [pings, pingCall]
      dsimp only
      rw [ih.1, ih.2, List.range_succ (n := n + 1)]
      simp
  rw [(h n).2]
  refine ⟨by simp, ?_⟩
  rw [List.getElem?_map, List.getElem?_range (by omega)]
  rfl

/-- C122. The projection of the centre of mass is sent on the ground once the signal has been computed at a
positive time; before, nothing is sent, whatever the value. -/
theorem C122_com {V : Type} (zero : V) (time : Int) (x y : V) (l v : List V) :
    (0 < time → updateComDisplay zero time (x :: y :: l) = .ok (some [x, y, zero, zero, zero, zero])) ∧
    (time ≤ 0 → updateComDisplay zero time v = .ok none) := by
  constructor
  · intro h; simp [updateComDisplay, h]
  · intro h
    have : ¬ 0 < time := by omega
    simp [updateComDisplay, this]

end Verif.Viewer
