import Verif.Pool.Model
import Verif.Texts.Props
import Mathlib.Data.List.GetD
import Mathlib.Data.List.Nodup

/-!
# C159: scripts of commands on the features of tasks (src/task/task.cpp:68-106, src/task/task-command.h)

A script creates and deletes features and gives commands to tasks. The command `add` designates a feature by its name, which is looked for in the
pool.

Simplifications: a feature is known by the rank of its creation; the tasks are numbered, and each one exists from the start; a command that throws
is reported and the script goes on. Nothing in the code tells the pool or the tasks that a feature is deleted. The dependencies of the signals are
those of C128 and are not repeated here.
-/

set_option autoImplicit false

namespace Verif.Script.Features

/-- What a script can do. -/
inductive Op where
  | create (n : String)
  | delete (n : String)
  | add (k : Nat) (n : String)
  | clear (k : Nat)
  | list (k : Nat)
  | setWithDerivative (k : Nat) (b : Bool)
  | getWithDerivative (k : Nat)

/-- What a command answers: an exception, nothing, a boolean or a text. -/
inductive Res where
  | error
  | done
  | bool (b : Bool)
  | text (t : List Char)
  deriving DecidableEq, Repr

/-- The pool, the names of the features in the order of their creation, and for each task the field `featureList` and the field
`withDerivative` (include/sot/core/task.hh:77-78). -/
structure World where
  pool : Pool.World
  names : List String
  feats : Nat → List Nat
  deriv : Nat → Bool

/-- At start: no feature, the tasks empty and without derivative (src/task/task.cpp:34-37, src/factory/pool.cpp:158-160). -/
def World.start : World := ⟨.start, [], fun _ => [], fun _ => false⟩

/-- The list of the task `k` becomes `l`. -/
def World.put (w : World) (k : Nat) (l : List Nat) : World := { w with feats := fun j => if j = k then l else w.feats j }

/-- One command (registered in src/task/task.cpp:68-106). The constructor of a feature registers it in the pool, and throws when its name is taken
(src/feature/feature-abstract.cpp:24-50, 66-68). `add` is `addFeatureFromName` (src/task/task.cpp:115-119) with `addFeature` (src/task/task.cpp:108-113);
`clear` is `clearFeatureList` (src/task/task.cpp:121-131), which reads the signals of each feature; `list` reads their names
(src/task/task-command.h:34-44). -/
def step (w : World) : Op → Outcome (Res × World)
  | .create n =>
    match Pool.registerFeature w.pool n w.names.length with
    | (.ok _, p) => .ok (.done, { w with pool := p, names := w.names ++ [n] })
    | (_, p) => .ok (.error, { w with pool := p })
  | .delete n =>
    match SMap.find n (Pool.getInstance w.pool).feature with
    | none => .ok (.error, w)
    | some e =>
      if e ∈ w.pool.deleted then .ok (.error, w)
      else .ok (.done, { w with pool := Pool.step w.pool (.delete e) })
  | .add k n =>
    match Pool.getFeature w.pool n with
    | .ok e => .ok (.done, w.put k (w.feats k ++ [e]))
    | .throw => .ok (.error, w)
    | .ub => .ub
  | .clear k => if ∃ e ∈ w.feats k, e ∈ w.pool.deleted then .ub else .ok (.done, w.put k [])
  | .list k =>
    if ∃ e ∈ w.feats k, e ∈ w.pool.deleted then .ub
    else .ok (.text (Texts.listFeatures ((w.feats k).map fun e => (w.names.getD e "").toList)), w)
  | .setWithDerivative k b => .ok (.done, { w with deriv := fun j => if j = k then b else w.deriv j })
  | .getWithDerivative k => .ok (.bool (w.deriv k), w)

/-- A script: the answers, and what is there afterwards. -/
def run : World → List Op → Outcome (List Res × World)
  | w, [] => .ok ([], w)
  | w, o :: os => (step w o).bind fun r => (run r.2 os).map fun q => (r.1 :: q.1, q.2)

/-! ## Specification -/

namespace Spec

/-- The names ever created, those deleted, and for each task the names of its features and whether it uses the derivative. -/
structure World where
  known : List String
  gone : List String
  feats : Nat → List String
  deriv : Nat → Bool

/-- At start. -/
def World.start : World := ⟨[], [], fun _ => [], fun _ => false⟩

/-- The list of names as Python writes it. -/
def listed (l : List String) : List Char := '[' :: (l.flatMap fun n => '\'' :: (n.toList ++ ['\'', ','])) ++ [']']

/-- One command; `ub` when the code would use a feature that was deleted. A name stays taken for ever; a feature can be several times in a list. -/
def step (s : World) : Op → Outcome (Res × World)
  | .create n => .ok (if n ∈ s.known then (.error, s) else (.done, { s with known := s.known ++ [n] }))
  | .delete n => .ok (if n ∈ s.known ∧ n ∉ s.gone then (.done, { s with gone := s.gone ++ [n] }) else (.error, s))
  | .add k n =>
    if n ∈ s.gone then .ub
    else .ok (if n ∈ s.known then (.done, { s with feats := fun j => if j = k then s.feats k ++ [n] else s.feats j }) else (.error, s))
  | .clear k => if ∃ n ∈ s.feats k, n ∈ s.gone then .ub else .ok (.done, { s with feats := fun j => if j = k then [] else s.feats j })
  | .list k => if ∃ n ∈ s.feats k, n ∈ s.gone then .ub else .ok (.text (listed (s.feats k)), s)
  | .setWithDerivative k b => .ok (.done, { s with deriv := fun j => if j = k then b else s.deriv j })
  | .getWithDerivative k => .ok (.bool (s.deriv k), s)

/-- A script. -/
def run : World → List Op → Outcome (List Res × World)
  | s, [] => .ok ([], s)
  | s, o :: os => (step s o).bind fun r => (run r.2 os).map fun q => (r.1 :: q.1, q.2)

end Spec

/-! ### Simulation -/

/-- The name of a feature. -/
def nm (names : List String) (e : Nat) : String := names.getD e ""

/-- The world of the code against the one of the specification. -/
structure Sim (w : World) (s : Spec.World) : Prop where
  names : w.names = s.known
  nodup : w.names.Nodup
  found : ∀ n e, SMap.find n (Pool.getInstance w.pool).feature = some e ↔ w.names[e]? = some n
  deleted : ∀ e ∈ w.pool.deleted, e < w.names.length
  gone : w.pool.deleted.map (nm w.names) = s.gone
  range : ∀ k, ∀ e ∈ w.feats k, e < w.names.length
  feats : ∀ k, (w.feats k).map (nm w.names) = s.feats k
  deriv : w.deriv = s.deriv

theorem sim_start : Sim World.start Spec.World.start where
  names := rfl
  nodup := List.nodup_nil
  found n e := by simp [World.start, Pool.World.start, Pool.getInstance, SMap.find]
  deleted e he := by simp [World.start, Pool.World.start] at he
  gone := rfl
  range k e he := by simp [World.start] at he
  feats k := rfl
  deriv := rfl

variable {w : World} {s : Spec.World}

theorem nm_of_get {names : List String} {e : Nat} {n : String} (h : names[e]? = some n) : nm names e = n := by
  unfold nm; rw [List.getD_eq_getElem?_getD, h]; rfl

theorem nm_append {names : List String} {e : Nat} (n : String) (h : e < names.length) : nm (names ++ [n]) e = nm names e := by
  unfold nm
  rw [List.getD_eq_getElem?_getD, List.getD_eq_getElem?_getD, List.getElem?_append_left h]

theorem Sim.inj (h : Sim w s) {e f : Nat} (he : e < w.names.length) (hf : f < w.names.length) (hn : nm w.names e = nm w.names f) : e = f := by
  unfold nm at hn
  rw [List.getD_eq_getElem _ _ he, List.getD_eq_getElem _ _ hf] at hn
  exact (List.Nodup.getElem_inj_iff h.nodup).mp hn

theorem Sim.known (h : Sim w s) {n : String} (hn : n ∈ s.known) :
    ∃ e, SMap.find n (Pool.getInstance w.pool).feature = some e ∧ e < w.names.length ∧ nm w.names e = n := by
  rw [← h.names] at hn
  obtain ⟨e, he, rfl⟩ := List.getElem_of_mem hn
  exact ⟨e, (h.found _ e).mpr (List.getElem?_eq_getElem he), he, nm_of_get (List.getElem?_eq_getElem he)⟩

theorem Sim.unknown (h : Sim w s) {n : String} (hn : n ∉ s.known) : SMap.find n (Pool.getInstance w.pool).feature = none := by
  cases hf : SMap.find n (Pool.getInstance w.pool).feature with
  | none => rfl
  | some e =>
    rw [h.found] at hf
    rw [← h.names] at hn
    exact absurd (List.mem_of_getElem? hf) hn

theorem Sim.mem_gone (h : Sim w s) {e : Nat} (he : e < w.names.length) : nm w.names e ∈ s.gone ↔ e ∈ w.pool.deleted := by
  rw [← h.gone, List.mem_map]
  constructor
  · rintro ⟨f, hf, hn⟩
    rw [← h.inj (h.deleted f hf) he hn]; exact hf
  · intro he'; exact ⟨e, he', rfl⟩

theorem Sim.gone_known (h : Sim w s) {n : String} (hn : n ∈ s.gone) : n ∈ s.known := by
  rw [← h.gone] at hn
  obtain ⟨e, he, rfl⟩ := List.mem_map.mp hn
  rw [← h.names]
  unfold nm
  rw [List.getD_eq_getElem _ _ (h.deleted e he)]
  exact List.getElem_mem _

theorem Sim.dead (h : Sim w s) (k : Nat) : (∃ e ∈ w.feats k, e ∈ w.pool.deleted) ↔ ∃ n ∈ s.feats k, n ∈ s.gone := by
  rw [← h.feats k]
  constructor
  · rintro ⟨e, he, hd⟩
    exact ⟨nm w.names e, List.mem_map_of_mem he, (h.mem_gone (h.range k e he)).mpr hd⟩
  · rintro ⟨n, hn, hg⟩
    obtain ⟨e, he, rfl⟩ := List.mem_map.mp hn
    exact ⟨e, he, (h.mem_gone (h.range k e he)).mp hg⟩

theorem listed_eq (l : List String) : Texts.listFeatures (l.map String.toList) = Spec.listed l := by
  unfold Texts.listFeatures Spec.listed
  rw [List.flatMap_map]
  rfl

/-- The list of a task is edited. -/
theorem Sim.put (h : Sim w s) (k : Nat) (l : List Nat) (hl : ∀ e ∈ l, e < w.names.length) :
    Sim (w.put k l) { s with feats := fun j => if j = k then l.map (nm w.names) else s.feats j } where
  names := h.names
  nodup := h.nodup
  found := h.found
  deleted := h.deleted
  gone := h.gone
  range j e he := by
    simp only [World.put] at he ⊢
    split_ifs at he
    · exact hl e he
    · exact h.range j e he
  feats j := by
    simp only [World.put]
    split_ifs
    · rfl
    · exact h.feats j
  deriv := h.deriv

/-- One command: undefined in both, or the same answer. -/
theorem Sim.step (h : Sim w s) (o : Op) :
    (step w o = .ub ∧ Spec.step s o = .ub) ∨
      ∃ r w' s', step w o = .ok (r, w') ∧ Spec.step s o = .ok (r, s') ∧ Sim w' s' := by
  cases o with
  | create n =>
    right
    by_cases hn : n ∈ s.known
    · obtain ⟨e, hf, -, -⟩ := h.known hn
      refine ⟨.error, { w with pool := { w.pool with inst := some (Pool.getInstance w.pool) } }, s, ?_, ?_, ?_⟩
      · simp only [Features.step, Pool.registerFeature, hf]
      · simp only [Spec.step, if_pos hn]
      · exact ⟨h.names, h.nodup, h.found, h.deleted, h.gone, h.range, h.feats, h.deriv⟩
    · have hf := h.unknown hn
      refine ⟨.done, { w with
          pool := { w.pool with inst := some { Pool.getInstance w.pool with feature := SMap.put n w.names.length (Pool.getInstance w.pool).feature } }
          names := w.names ++ [n] }, { s with known := s.known ++ [n] }, ?_, ?_, ?_⟩
      · simp only [Features.step, Pool.registerFeature, hf]
      · simp only [Spec.step, if_neg hn]
      · have hnew : n ∉ w.names := by rw [h.names]; exact hn
        refine ⟨by simp only [h.names], ?_, ?_, ?_, ?_, ?_, ?_, h.deriv⟩
        · rw [List.nodup_append]
          refine ⟨h.nodup, by simp, ?_⟩
          rintro a ha b hb rfl
          rw [List.mem_singleton] at hb
          rw [hb] at ha; exact hnew ha
        · intro m e
          simp only [Pool.getInstance, Option.getD_some, SMap.find_put]
          have hold : SMap.find m (w.pool.inst.getD ⟨[], []⟩).feature = some e ↔ w.names[e]? = some m := h.found m e
          by_cases hm : m = n
          · subst hm
            rw [if_pos rfl]
            constructor
            · intro he
              obtain rfl := Option.some.inj he
              simp
            · intro he
              by_cases hlt : e < w.names.length
              · rw [List.getElem?_append_left hlt] at he
                exact absurd (List.mem_of_getElem? he) hnew
              · have : e < (w.names ++ [m]).length := (List.getElem?_eq_some_iff.mp he).1
                rw [List.length_append, List.length_singleton] at this
                have : e = w.names.length := by omega
                rw [this]
          · rw [if_neg hm, hold]
            by_cases hlt : e < w.names.length
            · rw [List.getElem?_append_left hlt]
            · rw [List.getElem?_append_right (by omega), List.getElem?_eq_none (by omega : w.names.length ≤ e)]
              constructor
              · intro hc; cases hc
              · intro hc
                have := List.mem_of_getElem? hc
                rw [List.mem_singleton] at this
                exact absurd this hm
        · intro e he
          have := h.deleted e he
          simp only [List.length_append, List.length_singleton]; omega
        · rw [← h.gone]
          exact List.map_congr_left fun e he => nm_append n (h.deleted e he)
        · intro k e he
          have := h.range k e he
          simp only [List.length_append, List.length_singleton]; omega
        · intro k
          rw [← h.feats k]
          exact List.map_congr_left fun e he => nm_append n (h.range k e he)
  | delete n =>
    right
    by_cases hn : n ∈ s.known
    · obtain ⟨e, hf, he, hne⟩ := h.known hn
      by_cases hd : e ∈ w.pool.deleted
      · have hg : n ∈ s.gone := by rw [← hne]; exact (h.mem_gone he).mpr hd
        refine ⟨.error, w, s, ?_, ?_, h⟩
        · simp only [Features.step, hf, if_pos hd]
        · simp only [Spec.step, if_neg (fun hc : n ∈ s.known ∧ n ∉ s.gone => hc.2 hg)]
      · have hg : n ∉ s.gone := by rw [← hne]; exact fun hc => hd ((h.mem_gone he).mp hc)
        refine ⟨.done, { w with pool := Pool.step w.pool (.delete e) }, { s with gone := s.gone ++ [n] }, ?_, ?_, ?_⟩
        · simp only [Features.step, hf, if_neg hd]
        · simp only [Spec.step, if_pos (⟨hn, hg⟩ : n ∈ s.known ∧ n ∉ s.gone)]
        · refine ⟨h.names, h.nodup, h.found, ?_, ?_, h.range, h.feats, h.deriv⟩
          · intro f hf'
            simp only [Pool.step, List.mem_append, List.mem_singleton] at hf'
            rcases hf' with hf' | rfl
            · exact h.deleted f hf'
            · exact he
          · simp only [Pool.step, List.map_append, List.map_singleton, h.gone, hne]
    · refine ⟨.error, w, s, ?_, ?_, h⟩
      · simp only [Features.step, h.unknown hn]
      · simp only [Spec.step, if_neg (fun hc : n ∈ s.known ∧ n ∉ s.gone => hn hc.1)]
  | add k n =>
    by_cases hn : n ∈ s.known
    · obtain ⟨e, hf, he, hne⟩ := h.known hn
      by_cases hd : e ∈ w.pool.deleted
      · left
        have hg : n ∈ s.gone := by rw [← hne]; exact (h.mem_gone he).mpr hd
        exact ⟨by simp only [Features.step, Pool.getFeature, hf, if_pos hd], by simp only [Spec.step, if_pos hg]⟩
      · right
        have hg : n ∉ s.gone := by rw [← hne]; exact fun hc => hd ((h.mem_gone he).mp hc)
        refine ⟨.done, w.put k (w.feats k ++ [e]), { s with feats := fun j => if j = k then s.feats k ++ [n] else s.feats j }, ?_, ?_, ?_⟩
        · simp only [Features.step, Pool.getFeature, hf, if_neg hd]
        · simp only [Spec.step, if_neg hg, if_pos hn]
        · have := h.put k (w.feats k ++ [e]) (by
            intro f hf'
            rw [List.mem_append, List.mem_singleton] at hf'
            rcases hf' with hf' | rfl
            · exact h.range k f hf'
            · exact he)
          rw [List.map_append, List.map_singleton, h.feats k, hne] at this
          exact this
    · right
      have hg : n ∉ s.gone := fun hc => hn (h.gone_known hc)
      exact ⟨.error, w, s, by simp only [Features.step, Pool.getFeature, h.unknown hn], by simp only [Spec.step, if_neg hg, if_neg hn], h⟩
  | clear k =>
    by_cases hd : ∃ n ∈ s.feats k, n ∈ s.gone
    · left
      exact ⟨by simp only [Features.step, if_pos ((h.dead k).mpr hd)], by simp only [Spec.step, if_pos hd]⟩
    · right
      refine ⟨.done, w.put k [], { s with feats := fun j => if j = k then [] else s.feats j }, ?_, by simp only [Spec.step, if_neg hd], h.put k [] (by simp)⟩
      simp only [Features.step, if_neg (fun hc => hd ((h.dead k).mp hc))]
  | list k =>
    by_cases hd : ∃ n ∈ s.feats k, n ∈ s.gone
    · left
      exact ⟨by simp only [Features.step, if_pos ((h.dead k).mpr hd)], by simp only [Spec.step, if_pos hd]⟩
    · right
      refine ⟨.text (Spec.listed (s.feats k)), w, s, ?_, by simp only [Spec.step, if_neg hd], h⟩
      simp only [Features.step, if_neg (fun hc => hd ((h.dead k).mp hc))]
      rw [← listed_eq, ← h.feats k, List.map_map]
      rfl
  | setWithDerivative k b =>
    right
    exact ⟨.done, _, _, rfl, rfl, ⟨h.names, h.nodup, h.found, h.deleted, h.gone, h.range, h.feats, by simp only [h.deriv]⟩⟩
  | getWithDerivative k =>
    right
    exact ⟨.bool (s.deriv k), w, s, by simp only [Features.step, h.deriv], rfl, h⟩

theorem Sim.run (h : Sim w s) (os : List Op) :
    (run w os = .ub ∧ Spec.run s os = .ub) ∨
      ∃ rs w' s', run w os = .ok (rs, w') ∧ Spec.run s os = .ok (rs, s') ∧ Sim w' s' := by
  induction os generalizing w s with
  | nil => exact .inr ⟨[], w, s, rfl, rfl, h⟩
  | cons o os ih =>
    rcases h.step o with ⟨h1, h2⟩ | ⟨r, w1, s1, h1, h2, h3⟩
    · left
      exact ⟨by rw [Features.run, h1]; rfl, by rw [Spec.run, h2]; rfl⟩
    · rcases ih h3 with ⟨g1, g2⟩ | ⟨rs, w2, s2, g1, g2, g3⟩
      · left
        exact ⟨by rw [Features.run, h1, Outcome.bind_ok, g1]; rfl, by rw [Spec.run, h2, Outcome.bind_ok, g2]; rfl⟩
      · right
        exact ⟨r :: rs, w2, s2, by rw [Features.run, h1, Outcome.bind_ok, g1]; rfl, by rw [Spec.run, h2, Outcome.bind_ok, g2]; rfl, g3⟩

/-! ### Properties -/

/-- C159. Every script, with or without deletions, does in the code what it does in the specification, where the tasks hold names: the same answers, or
undefined behaviour in both. -/
theorem C159_script (os : List Op) :
    (run World.start os).map (·.1) = (Spec.run Spec.World.start os).map (·.1) := by
  rcases sim_start.run os with ⟨h1, h2⟩ | ⟨rs, w', s', h1, h2, -⟩
  · rw [h1, h2]; rfl
  · rw [h1, h2]; rfl

/-- A script that deletes nothing. -/
theorem spec_defined (os : List Op) (ho : ∀ n, .delete n ∉ os) (s : Spec.World) (hs : s.gone = []) : ∃ q, Spec.run s os = .ok q := by
  induction os generalizing s with
  | nil => exact ⟨_, rfl⟩
  | cons o os ih =>
    have hstep : ∃ r s', Spec.step s o = .ok (r, s') ∧ s'.gone = [] := by
      cases o with
      | create n => by_cases hn : n ∈ s.known <;> simp [Spec.step, hn, hs]
      | delete n => exact absurd List.mem_cons_self (ho n)
      | add k n => by_cases hn : n ∈ s.known <;> simp [Spec.step, hn, hs]
      | clear k => simp [Spec.step, hs]
      | list k => simp [Spec.step, hs]
      | setWithDerivative k b => simp [Spec.step, hs]
      | getWithDerivative k => simp [Spec.step, hs]
    obtain ⟨r, s', h1, h2⟩ := hstep
    obtain ⟨q, hq⟩ := ih (fun n hn => ho n (List.mem_cons_of_mem _ hn)) s' h2
    exact ⟨(r :: q.1, q.2), by rw [Spec.run, h1, Outcome.bind_ok, hq]; rfl⟩

/-- C159. A script that deletes no feature is defined. -/
theorem C159_defined (os : List Op) (ho : ∀ n, .delete n ∉ os) : ∃ q, run World.start os = .ok q := by
  obtain ⟨q, hq⟩ := spec_defined os ho Spec.World.start rfl
  rcases sim_start.run os with ⟨-, h2⟩ | ⟨rs, w', s', h1, -, -⟩
  · rw [hq] at h2; cases h2
  · exact ⟨_, h1⟩

/-- C159. The text of `list` is read by Python as the list of the names, in the order of the additions, when the names have no quote, backslash or
end of line. -/
theorem C159_list (l : List String) (h : ∀ n ∈ l, Texts.Simple '\'' n.toList) (m : List (List Char)) :
    Texts.Reads '\'' '[' ']' (Spec.listed l) m ↔ m = l.map String.toList := by
  rw [← listed_eq]
  exact Texts.C119_features _ (by simpa using h) m

/-- C159. A feature that was added to a task and then deleted leaves the task unusable: the task cannot list its features, nor clear its list, and the
name can neither be added nor created again. -/
theorem C159_deleted_counterexample (n : String) (k : Nat) :
    run World.start [.create n, .add k n, .delete n, .list k] = .ub ∧ run World.start [.create n, .add k n, .delete n, .clear k] = .ub ∧
    run World.start [.create n, .delete n, .add k n] = .ub ∧
    (run World.start [.create n, .delete n, .create n]).map (·.1) = .ok [.done, .done, .error] := by
  have key : ∀ os, Spec.run Spec.World.start os = .ub → run World.start os = .ub := by
    intro os h
    rcases sim_start.run os with ⟨h1, -⟩ | ⟨_, _, _, -, h2, -⟩
    · exact h1
    · rw [h] at h2; cases h2
  refine ⟨key _ ?_, key _ ?_, key _ ?_, ?_⟩
  · simp [Spec.run, Spec.step, Spec.World.start, Outcome.bind, Outcome.map]
  · simp [Spec.run, Spec.step, Spec.World.start, Outcome.bind, Outcome.map]
  · simp [Spec.run, Spec.step, Spec.World.start, Outcome.bind, Outcome.map]
  · rw [C159_script]
    simp [Spec.run, Spec.step, Spec.World.start, Outcome.bind, Outcome.map]

/-- C159. Two features, one added twice, a name that does not exist, and the deletion of a feature that is in no list. -/
theorem C159_case :
    (run World.start [.create "a", .create "b", .create "c", .add 0 "b", .add 0 "a", .add 0 "b", .add 1 "x", .delete "c", .list 0, .clear 0, .list 0,
      .getWithDerivative 0]).map (·.1) =
      .ok [.done, .done, .done, .done, .done, .done, .error, .done, .text "['b','a','b',]".toList, .done, .text "[]".toList, .bool false] := by
  rw [C159_script]
  decide +kernel

end Verif.Script.Features
