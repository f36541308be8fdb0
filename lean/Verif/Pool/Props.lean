import Verif.Pool.Model
import Verif.Common.Lists

/-!
# Properties C45 (pool of tasks and features) and C78 (name of the graph)
-/
set_option linter.unusedSimpArgs false

namespace Verif.Pool

open SMap

/-- What happened since the pool was last destroyed. -/
def sinceDestroy (h : List Op) : List Op := (h.reverse.takeWhile fun o => o ≠ .destroy).reverse

/-- The first task given a name. -/
def firstTask (n : String) (h : List Op) : Option Nat :=
  (h.filterMap fun o => match o with
    | .task m e => if m = n then some e else none
    | _ => none).head?

/-- The first feature given a name. -/
def firstFeature (n : String) (h : List Op) : Option Nat :=
  (h.filterMap fun o => match o with
    | .feature m e => if m = n then some e else none
    | _ => none).head?

theorem sinceDestroy_snoc (h : List Op) (o : Op) :
    sinceDestroy (h ++ [o]) = if o = .destroy then [] else sinceDestroy h ++ [o] := by
  unfold sinceDestroy
  rw [List.reverse_append, List.reverse_singleton, List.singleton_append, List.takeWhile_cons]
  by_cases e : o = .destroy <;> simp [e]

theorem head?_or {α : Type} (a b : List α) : (a ++ b).head? = a.head?.or b.head? := by
  cases a <;> simp

theorem firstTask_append (n : String) (h h' : List Op) :
    firstTask n (h ++ h') = (firstTask n h).or (firstTask n h') := by
  simp only [firstTask, List.filterMap_append, head?_or]

theorem firstFeature_append (n : String) (h h' : List Op) :
    firstFeature n (h ++ h') = (firstFeature n h).or (firstFeature n h') := by
  simp only [firstFeature, List.filterMap_append, head?_or]

theorem run_snoc (h : List Op) (o : Op) : run (h ++ [o]) = step (run h) o := by simp [run]

theorem run_spec (h : List Op) :
    (∀ n, find n (getInstance (run h)).task = firstTask n (sinceDestroy h)) ∧
    (∀ n, find n (getInstance (run h)).feature = firstFeature n (sinceDestroy h)) ∧
    (∀ e, e ∈ (run h).deleted ↔ .delete e ∈ h) := by
  induction h using snoc_induction with
  | nil => simp [run, World.start, getInstance, find, sinceDestroy, firstTask, firstFeature]
  | snoc h o ih =>
    obtain ⟨i1, i2, i3⟩ := ih
    rw [run_snoc, sinceDestroy_snoc]
    cases o with
    | task m e =>
      simp only [step, registerTask, reduceCtorEq, if_false, firstTask_append, firstFeature_append, ← i1, ← i2]
      split
      · rename_i x hx
        refine ⟨?_, ?_, by simpa using i3⟩
        · intro n
          simp only [getInstance, Option.getD_some]
          by_cases hn : m = n
          · subst hn
            simp only [getInstance] at hx
            simp [hx]
          · simp [firstTask, hn]
        · intro n
          simp [getInstance, firstFeature]
      · rename_i hx
        refine ⟨?_, ?_, by simpa using i3⟩
        · intro n
          simp only [getInstance, Option.getD_some, find_put]
          by_cases hn : m = n
          · subst hn
            simp only [getInstance] at hx
            simp [hx, firstTask]
          · simp [firstTask, hn, Ne.symm hn]
        · intro n
          simp [getInstance, firstFeature]
    | feature m e =>
      simp only [step, registerFeature, reduceCtorEq, if_false, firstTask_append, firstFeature_append, ← i1, ← i2]
      split
      · rename_i x hx
        refine ⟨?_, ?_, by simpa using i3⟩
        · intro n
          simp [getInstance, firstTask]
        · intro n
          simp only [getInstance, Option.getD_some]
          by_cases hn : m = n
          · subst hn
            simp only [getInstance] at hx
            simp [hx]
          · simp [firstFeature, hn]
      · rename_i hx
        refine ⟨?_, ?_, by simpa using i3⟩
        · intro n
          simp [getInstance, firstTask]
        · intro n
          simp only [getInstance, Option.getD_some, find_put]
          by_cases hn : m = n
          · subst hn
            simp only [getInstance] at hx
            simp [hx, firstFeature]
          · simp [firstFeature, hn, Ne.symm hn]
    | delete e =>
      simp only [step, reduceCtorEq, if_false, firstTask_append, firstFeature_append, ← i1, ← i2]
      refine ⟨?_, ?_, ?_⟩
      · intro n; simp [getInstance, firstTask]
      · intro n; simp [getInstance, firstFeature]
      · intro e'; simp [i3]
    | destroy =>
      simp only [step, if_true, destroy]
      refine ⟨?_, ?_, by simpa using i3⟩
      · intro n; simp [getInstance, firstTask, find]
      · intro n; simp [getInstance, firstFeature, find]

/-- **C45.** The task found under a name is the first one registered under it since the pool was last destroyed; an
unknown name raises an exception. -/
theorem C45_task_found (h : List Op) (n : String) (e : Nat) (hd : .delete e ∉ h) :
    (firstTask n (sinceDestroy h) = some e → getTask (run h) n = .ok e) ∧
    (firstTask n (sinceDestroy h) = none → getTask (run h) n = .throw) := by
  obtain ⟨i1, -, i3⟩ := run_spec h
  constructor
  · intro he
    rw [getTask, i1, he]
    simp [i3, hd]
  · intro he
    rw [getTask, i1, he]

/-- **C45.** The same for features. -/
theorem C45_feature_found (h : List Op) (n : String) (e : Nat) (hd : .delete e ∉ h) :
    (firstFeature n (sinceDestroy h) = some e → getFeature (run h) n = .ok e) ∧
    (firstFeature n (sinceDestroy h) = none → getFeature (run h) n = .throw) := by
  obtain ⟨-, i2, i3⟩ := run_spec h
  constructor
  · intro he
    rw [getFeature, i2, he]
    simp [i3, hd]
  · intro he
    rw [getFeature, i2, he]

example : firstTask "t" (sinceDestroy [.task "t" 1, .destroy, .feature "t" 5, .task "t" 2, .delete 7, .task "t" 3]) =
    some 2 := by decide

/-- **C45.** Once registered under a free name, a task is found under it for ever after, whatever is registered or
deleted, as long as neither it nor the pool is. -/
theorem C45_task_for_ever (before after : List Op) (n : String) (e : Nat)
    (hfree : firstTask n (sinceDestroy before) = none)
    (hb : .delete e ∉ before) (ha : .delete e ∉ after) (hp : .destroy ∉ after) :
    (registerTask (run before) n e).1 = .ok () ∧ getTask (run (before ++ .task n e :: after)) n = .ok e := by
  constructor
  · have := (run_spec before).1 n
    rw [hfree] at this
    simp only [registerTask, this]
  · have hd : Op.delete e ∉ before ++ .task n e :: after := by simp [hb, ha]
    refine (C45_task_found _ n e hd).1 ?_
    have : sinceDestroy (before ++ .task n e :: after) = sinceDestroy before ++ .task n e :: after := by
      clear ha hd hb hfree
      induction after using snoc_induction with
      | nil => rw [sinceDestroy_snoc]; simp
      | snoc l a ih =>
        simp only [List.mem_append, List.mem_singleton, not_or] at hp
        have e1 : before ++ .task n e :: (l ++ [a]) = (before ++ .task n e :: l) ++ [a] := by simp
        rw [e1, sinceDestroy_snoc, if_neg (Ne.symm hp.2), ih hp.1]
        simp
    rw [this, firstTask_append, hfree]
    simp [firstTask]

/-- **C45.** The same for features. -/
theorem C45_feature_for_ever (before after : List Op) (n : String) (e : Nat)
    (hfree : firstFeature n (sinceDestroy before) = none)
    (hb : .delete e ∉ before) (ha : .delete e ∉ after) (hp : .destroy ∉ after) :
    (registerFeature (run before) n e).1 = .ok () ∧ getFeature (run (before ++ .feature n e :: after)) n = .ok e := by
  constructor
  · have := (run_spec before).2.1 n
    rw [hfree] at this
    simp only [registerFeature, this]
  · have hd : Op.delete e ∉ before ++ .feature n e :: after := by simp [hb, ha]
    refine (C45_feature_found _ n e hd).1 ?_
    have : sinceDestroy (before ++ .feature n e :: after) = sinceDestroy before ++ .feature n e :: after := by
      clear ha hd hb hfree
      induction after using snoc_induction with
      | nil => rw [sinceDestroy_snoc]; simp
      | snoc l a ih =>
        simp only [List.mem_append, List.mem_singleton, not_or] at hp
        have e1 : before ++ .feature n e :: (l ++ [a]) = (before ++ .feature n e :: l) ++ [a] := by simp
        rw [e1, sinceDestroy_snoc, if_neg (Ne.symm hp.2), ih hp.1]
        simp
    rw [this, firstFeature_append, hfree]
    simp [firstFeature]

example : firstFeature "f" (sinceDestroy [.task "f" 4, .feature "g" 2]) = none ∧
    Op.delete 1 ∉ [Op.task "f" 4, .feature "g" 2] ∧ Op.destroy ∉ [Op.feature "f" 9, .delete 4] := by decide

/-- **C45.** Registering anything under a used name raises an exception and changes nothing. -/
theorem C45_conflict (h : List Op) (n : String) (e : Nat) :
    ((firstTask n (sinceDestroy h)).isSome → (registerTask (run h) n e).1 = .throw ∧
      ∀ m, getTask (registerTask (run h) n e).2 m = getTask (run h) m) ∧
    ((firstFeature n (sinceDestroy h)).isSome → (registerFeature (run h) n e).1 = .throw ∧
      ∀ m, getFeature (registerFeature (run h) n e).2 m = getFeature (run h) m) := by
  obtain ⟨i1, i2, -⟩ := run_spec h
  constructor
  · intro hs
    obtain ⟨x, hx⟩ := Option.isSome_iff_exists.mp hs
    have := i1 n
    rw [hx] at this
    simp only [registerTask, this, true_and]
    intro m
    simp [getTask, getInstance]
  · intro hs
    obtain ⟨x, hx⟩ := Option.isSome_iff_exists.mp hs
    have := i2 n
    rw [hx] at this
    simp only [registerFeature, this, true_and]
    intro m
    simp [getFeature, getInstance]

/-- **C45 needs the entity to be alive.** After a task is deleted its name still gives a reference, which dangles, and
cannot be given to another one. -/
theorem C45_deleted_counterexample :
    getTask (run [.task "t" 1, .delete 1]) "t" = .ub ∧
    (registerTask (run [.task "t" 1, .delete 1]) "t" 2).1 = .throw := by decide

/-! ### C78 -/

theorem rfind_none (c : Char) (l : List Char) (h : c ∉ l) : rfind c l = none := by
  induction l with
  | nil => rfl
  | cons d l ih =>
    simp only [List.mem_cons, not_or] at h
    rw [rfind, ih h.2, if_neg (Ne.symm h.1)]

theorem rfind_append (c : Char) (a b : List Char) (h : c ∉ b) : rfind c (a ++ c :: b) = some a.length := by
  induction a with
  | nil => simp [rfind, rfind_none c b h]
  | cons d a ih => simp [rfind, ih]

/-- **C78, files without a directory.** The graph is called like the file without its extension. -/
theorem C78_plain_file (base ext : List Char) (h1 : '/' ∉ base) (h2 : '/' ∉ ext) (h3 : '.' ∉ ext) :
    graphName (base ++ '.' :: ext) = .ok base := by
  have : '/' ∉ base ++ '.' :: ext := by simp [h1, h2]
  simp [graphName, rfind_append _ _ _ h3, rfind_none _ _ this]

/-- **C78, files in a directory.** The graph is called like the file, but with the separator in front of the name. -/
theorem C78_file_in_directory_partial (dir base ext : List Char) (h1 : '/' ∉ base) (h2 : '/' ∉ ext) (h3 : '.' ∉ ext) :
    graphName (dir ++ '/' :: base ++ '.' :: ext) = .ok ('/' :: base) := by
  have e1 : rfind '/' (dir ++ '/' :: base ++ '.' :: ext) = some dir.length := by
    have : '/' ∉ base ++ '.' :: ext := by simp [h1, h2]
    have := rfind_append '/' dir _ this
    simpa using this
  have e2 := rfind_append '.' (dir ++ '/' :: base) ext h3
  simp only [graphName, e1, e2]
  rw [List.take_left' rfl, substr, if_neg (by simp)]
  simp only [List.drop_left]
  rw [List.take_of_length_le (by simp)]

example : graphName "a/b/my.graph.dot".toList = .ok "/my.graph".toList := by decide

/-- **C78, files without an extension.** When the only dot of the path is in a directory, writing always fails. -/
theorem C78_dot_in_directory_throws (dir dir' base : List Char) (h1 : '/' ∉ base) (h2 : '.' ∉ dir') (h3 : '.' ∉ base) :
    graphName (dir ++ '.' :: dir' ++ '/' :: base) = .throw := by
  have e1 := rfind_append '/' (dir ++ '.' :: dir') base h1
  have e2 : rfind '.' (dir ++ '.' :: dir' ++ '/' :: base) = some dir.length := by
    have : '.' ∉ dir' ++ '/' :: base := by simp [h2, h3]
    have := rfind_append '.' dir _ this
    simpa using this
  simp only [graphName, e1, e2]
  rw [substr, if_pos (by simp)]

/-- **C78 is false.** The graph of `/tmp/graph.dot` is called `/graph`, and writing `./graph` fails. -/
theorem C78_counterexample :
    graphName "/tmp/graph.dot".toList = .ok "/graph".toList ∧ graphName "./graph".toList = .throw := by decide

end Verif.Pool
