import Verif.Script.Model
import Verif.Sot.StackProps
import Verif.Texts.Props
import Mathlib.Data.List.GetD
import Mathlib.Data.List.Nodup

/-!
# C155: scripts of commands on stacks of tasks
-/

namespace Verif.Script

/-! ### Specification: stacks are lists of names -/

namespace Spec

/-- The name is exchanged with the one before it. -/
def raise (n : String) : List String → List String
  | a :: b :: l => if a = n then a :: b :: l else if b = n then b :: a :: l else a :: raise n (b :: l)
  | l => l

/-- The name is exchanged with the one after it. -/
def lower (n : String) : List String → List String
  | a :: b :: l => if a = n then b :: a :: l else a :: lower n (b :: l)
  | l => l

/-- The names of the tasks, the sizes and the contents of the stacks. -/
structure World where
  known : List String
  size : Nat → Nat
  stack : Nat → List String

def World.start : World := ⟨[], fun _ => 0, fun _ => []⟩

/-- The stack `k` becomes `l`. -/
def World.put (s : World) (k : Nat) (l : List String) : World := { s with stack := fun j => if j = k then l else s.stack j }

/-- The text of the command `list`. -/
def listed (l : List String) : List Char :=
  "( ".toList ++ l.flatMap (fun n => "\"".toList ++ n.toList ++ "\", ".toList) ++ ")".toList

/-- The text of the command `display`. -/
def shown (l : List String) : List Char :=
  "+-----------------\n+   SOT     \n+-----------------\n".toList ++ l.flatMap (fun n => "| ".toList ++ n.toList ++ "\n".toList) ++
    "+-----------------\n".toList

/-- What each command should do: an unknown name is refused, and nothing changes. -/
def step (s : World) : Op → Res × World
  | .create n => if n ∈ s.known then (.error, s) else (.done, { s with known := s.known ++ [n] })
  | .delete _ => (.error, s)
  | .setSize k d => (.done, { s with size := fun j => if j = k then d else s.size j })
  | .getSize k => (.num (s.size k), s)
  | .push k n => if n ∉ s.known ∨ s.size k = 0 then (.error, s) else (.done, s.put k (s.stack k ++ [n]))
  | .remove k n => if n ∉ s.known then (.error, s) else (.done, s.put k ((s.stack k).erase n))
  | .up k n => if n ∉ s.known then (.error, s) else (.done, s.put k (raise n (s.stack k)))
  | .down k n => if n ∉ s.known then (.error, s) else (.done, s.put k (lower n (s.stack k)))
  | .clear k => (.done, s.put k [])
  | .list k => (.text (listed (s.stack k)), s)
  | .display k => (.text (shown (s.stack k)), s)

/-- The answers of a script. -/
def run : World → List Op → List Res × World
  | s, [] => ([], s)
  | s, o :: os => ((step s o).1 :: (run (step s o).2 os).1, (run (step s o).2 os).2)

end Spec

/-! ### List lemmas -/

theorem raise_absent {n : String} : ∀ {l : List String}, n ∉ l → Spec.raise n l = l
  | [], _ => rfl
  | [_], _ => rfl
  | a :: b :: l, h => by
    have h1 : a ≠ n := by rintro rfl; exact h (by simp)
    have h2 : b ≠ n := by rintro rfl; exact h (by simp)
    rw [Spec.raise, if_neg h1, if_neg h2, raise_absent (fun h' => h (List.mem_cons_of_mem _ h'))]

theorem raise_split {n x : String} {b : List String} : ∀ {a : List String}, n ∉ a → n ≠ x →
    Spec.raise n (a ++ x :: n :: b) = a ++ n :: x :: b
  | [], _, h => by simp [Spec.raise, Ne.symm h]
  | [c], ha, h => by
    have : c ≠ n := by rintro rfl; exact ha (by simp)
    simp [Spec.raise, this, Ne.symm h]
  | c :: d :: a, ha, h => by
    have h1 : c ≠ n := by rintro rfl; exact ha (by simp)
    have h2 : d ≠ n := by rintro rfl; exact ha (by simp)
    have := raise_split (b := b) (a := d :: a) (fun h' => ha (List.mem_cons_of_mem _ h')) h
    rw [List.cons_append] at this
    rw [List.cons_append, List.cons_append, Spec.raise, if_neg h1, if_neg h2, this]
    rfl

theorem raise_first {n : String} (b : List String) : Spec.raise n (n :: b) = n :: b := by
  cases b <;> simp [Spec.raise]

theorem lower_absent {n : String} : ∀ {l : List String}, n ∉ l → Spec.lower n l = l
  | [], _ => rfl
  | [_], _ => rfl
  | a :: b :: l, h => by
    have h1 : a ≠ n := by rintro rfl; exact h (by simp)
    rw [Spec.lower, if_neg h1, lower_absent (fun h' => h (List.mem_cons_of_mem _ h'))]

theorem lower_last {n : String} : ∀ {a : List String}, n ∉ a → Spec.lower n (a ++ [n]) = a ++ [n]
  | [], _ => rfl
  | [c], ha => by
    have : c ≠ n := by rintro rfl; exact ha (by simp)
    simp [Spec.lower, this]
  | c :: d :: a, ha => by
    have h1 : c ≠ n := by rintro rfl; exact ha (by simp)
    have := lower_last (a := d :: a) (fun h' => ha (List.mem_cons_of_mem _ h'))
    rw [List.cons_append] at this
    rw [List.cons_append, List.cons_append, Spec.lower, if_neg h1, this]

theorem lower_split {n x : String} {b : List String} : ∀ {a : List String}, n ∉ a →
    Spec.lower n (a ++ n :: x :: b) = a ++ x :: n :: b
  | [], _ => by simp [Spec.lower]
  | [c], ha => by
    have : c ≠ n := by rintro rfl; exact ha (by simp)
    simp [Spec.lower, this]
  | c :: d :: a, ha => by
    have h1 : c ≠ n := by rintro rfl; exact ha (by simp)
    have := lower_split (x := x) (b := b) (a := d :: a) (fun h' => ha (List.mem_cons_of_mem _ h'))
    rw [List.cons_append] at this
    rw [List.cons_append, List.cons_append, Spec.lower, if_neg h1, this]
    rfl

/-! ### Simulation -/

/-- The names of the tasks of a stack. -/
def nm (names : List String) (e : Nat) : String := names.getD e ""

/-- The world of the code against the one of the specification. -/
structure Sim (w : World) (s : Spec.World) : Prop where
  names : w.names = s.known
  nodup : w.names.Nodup
  found : ∀ n e, SMap.find n (Pool.getInstance w.pool).task = some e ↔ w.names[e]? = some n
  alive : w.pool.deleted = []
  range : ∀ k, ∀ e ∈ (w.sots k).stack, e < w.names.length
  stack : ∀ k, (w.sots k).stack.map (nm w.names) = s.stack k
  size : ∀ k, (w.sots k).nbJoints = s.size k

theorem sim_start : Sim World.start Spec.World.start where
  names := rfl
  nodup := List.nodup_nil
  found n e := by simp [World.start, Pool.World.start, Pool.getInstance, SMap.find]
  alive := rfl
  range k e he := by simp [World.start, Sot.init] at he
  stack k := rfl
  size k := rfl

variable {w : World} {s : Spec.World}

theorem Sim.inj (h : Sim w s) {e f : Nat} (he : e < w.names.length) (hf : f < w.names.length) (hn : nm w.names e = nm w.names f) : e = f := by
  unfold nm at hn
  rw [List.getD_eq_getElem _ _ he, List.getD_eq_getElem _ _ hf] at hn
  exact (List.Nodup.getElem_inj_iff h.nodup).mp hn

/-- A name that is known is the one of a task. -/
theorem Sim.known (h : Sim w s) {n : String} (hn : n ∈ s.known) :
    ∃ e, Pool.getTask w.pool n = .ok e ∧ e < w.names.length ∧ nm w.names e = n := by
  rw [← h.names] at hn
  obtain ⟨e, he, rfl⟩ := List.getElem_of_mem hn
  have := (h.found w.names[e] e).mpr (List.getElem?_eq_getElem he)
  refine ⟨e, ?_, he, ?_⟩
  · rw [Pool.getTask, this]; simp [h.alive]
  · unfold nm; rw [List.getD_eq_getElem _ _ he]

theorem Sim.unknown (h : Sim w s) {n : String} (hn : n ∉ s.known) : SMap.find n (Pool.getInstance w.pool).task = none := by
  cases hf : SMap.find n (Pool.getInstance w.pool).task with
  | none => rfl
  | some e =>
    rw [h.found] at hf
    rw [← h.names] at hn
    exact absurd (List.mem_of_getElem? hf) hn

/-- A name is in the list of the specification when its task is in the stack. -/
theorem Sim.mem (h : Sim w s) {l : List Nat} (hl : ∀ e ∈ l, e < w.names.length) {e : Nat} (he : e < w.names.length) :
    nm w.names e ∈ l.map (nm w.names) ↔ e ∈ l := by
  rw [List.mem_map]
  constructor
  · rintro ⟨f, hf, hn⟩
    rw [← h.inj (hl f hf) he hn]; exact hf
  · intro he'; exact ⟨e, he', rfl⟩

/-- The stack `k` is edited. -/
theorem Sim.edit (h : Sim w s) (k : Nat) (st : Sot.State Nat) (l : List String) (hr : ∀ e ∈ st.stack, e < w.names.length)
    (hl : st.stack.map (nm w.names) = l) (hd : st.nbJoints = s.size k) : Sim (w.setStack k st) (s.put k l) where
  names := h.names
  nodup := h.nodup
  found := h.found
  alive := h.alive
  range j e he := by
    simp only [World.setStack] at he ⊢
    split_ifs at he with hj
    · exact hr e he
    · exact h.range j e he
  stack j := by
    simp only [World.setStack, Spec.World.put]
    split_ifs with hj
    · exact hl
    · exact h.stack j
  size j := by
    simp only [World.setStack, Spec.World.put]
    split_ifs with hj
    · rw [hj]; exact hd
    · exact h.size j

theorem Sim.split (h : Sim w s) (k : Nat) {e : Nat} (he : e < w.names.length) (hm : e ∈ (w.sots k).stack) :
    ∃ a b, (w.sots k).stack = a ++ e :: b ∧ e ∉ a ∧ s.stack k = a.map (nm w.names) ++ nm w.names e :: b.map (nm w.names) ∧
      nm w.names e ∉ a.map (nm w.names) := by
  obtain ⟨a, b, h1, h2⟩ := Sot.exists_split e _ hm
  refine ⟨a, b, h1, h2, ?_, fun hc => h2 ((h.mem (fun f hf => ?_) he).mp hc)⟩
  · rw [← h.stack k, h1, List.map_append, List.map_cons]
  · exact h.range k f (by rw [h1]; exact List.mem_append_left _ hf)

theorem Sim.absent (h : Sim w s) (k : Nat) {e : Nat} (he : e < w.names.length) (hm : e ∉ (w.sots k).stack) : nm w.names e ∉ s.stack k := by
  rw [← h.stack k, h.mem (h.range k) he]; exact hm

theorem Sim.remove (h : Sim w s) (k : Nat) {e : Nat} (he : e < w.names.length) :
    Sim (w.setStack k (Sot.remove (w.sots k) e)) (s.put k ((s.stack k).erase (nm w.names e))) := by
  have hd : (Sot.remove (w.sots k) e).nbJoints = s.size k := by
    rw [← h.size k]; unfold Sot.remove; dsimp only; split_ifs <;> rfl
  by_cases hm : e ∈ (w.sots k).stack
  · obtain ⟨a, b, h1, h2, h3, h4⟩ := h.split k he hm
    have e1 := (Sot.C07_remove (w.sots k) e).2 a b h1 h2
    refine h.edit k _ _ (fun f hf => h.range k f ?_) ?_ hd
    · rw [e1] at hf; rw [h1]; simp at hf ⊢; tauto
    · rw [e1, h3, List.erase_append_right _ h4, List.erase_cons_head, List.map_append]
  · rw [List.erase_of_not_mem (h.absent k he hm)]
    refine h.edit k _ _ (fun f hf => h.range k f ?_) ?_ hd
    · rwa [(Sot.C07_remove (w.sots k) e).1 hm] at hf
    · rw [(Sot.C07_remove (w.sots k) e).1 hm, h.stack k]

theorem Sim.up (h : Sim w s) (k : Nat) {e : Nat} (he : e < w.names.length) :
    Sim (w.setStack k (Sot.up (w.sots k) e)) (s.put k (Spec.raise (nm w.names e) (s.stack k))) := by
  have hd : (Sot.up (w.sots k) e).nbJoints = s.size k := by
    rw [← h.size k]; unfold Sot.up; dsimp only; split_ifs <;> rfl
  obtain ⟨u1, u2, u3⟩ := Sot.C07_up (w.sots k) e
  refine h.edit k _ _ (fun f hf => h.range k f (((Sot.C07_reorder_perm (w.sots k) e).1.mem_iff).mp hf)) ?_ hd
  by_cases hm : e ∈ (w.sots k).stack
  · obtain ⟨a, b, h1, h2, h3, h4⟩ := h.split k he hm
    rcases List.eq_nil_or_concat a with rfl | ⟨a', x, rfl⟩
    · rw [u2 b (by simpa using h1), h.stack k, h3]
      exact (raise_first _).symm
    · simp only [List.concat_eq_append] at h1 h2 h3 h4
      rw [u3 a' x b (by simpa using h1) (fun hc => h2 (by simp [hc])) (fun hc => h2 (by simp [hc])), h3]
      simp only [List.map_append, List.map_cons, List.map_nil, List.append_assoc, List.singleton_append]
      rw [raise_split (fun hc => h4 (by rw [List.map_append]; exact List.mem_append_left _ hc))
        (fun hc => h4 (by rw [hc]; simp))]
  · rw [u1 hm, h.stack k, raise_absent (h.absent k he hm)]

theorem Sim.down (h : Sim w s) (k : Nat) {e : Nat} (he : e < w.names.length) :
    Sim (w.setStack k (Sot.down (w.sots k) e)) (s.put k (Spec.lower (nm w.names e) (s.stack k))) := by
  have hd : (Sot.down (w.sots k) e).nbJoints = s.size k := by
    rw [← h.size k]; unfold Sot.down; dsimp only; split_ifs <;> rfl
  obtain ⟨u1, u2, u3⟩ := Sot.C07_down (w.sots k) e
  refine h.edit k _ _ (fun f hf => h.range k f (((Sot.C07_reorder_perm (w.sots k) e).2.mem_iff).mp hf)) ?_ hd
  by_cases hm : e ∈ (w.sots k).stack
  · obtain ⟨a, b, h1, h2, h3, h4⟩ := h.split k he hm
    cases b with
    | nil => rw [u2 a h1 h2, h.stack k, h3]; exact (lower_last h4).symm
    | cons x b =>
      rw [u3 a x b h1 h2, h3, List.map_cons, lower_split h4]
      simp
  · rw [u1 hm, h.stack k, lower_absent (h.absent k he hm)]

theorem Sim.names_of (h : Sim w s) (k : Nat) : w.namesOf k = .ok ((s.stack k).map String.toList) := by
  unfold World.namesOf
  rw [if_neg (by rintro ⟨e, -, he⟩; rw [h.alive] at he; simp at he), ← h.stack k, List.map_map]
  rfl

theorem listed_eq (l : List String) : Texts.listStack (l.map String.toList) = Spec.listed l := by
  unfold Texts.listStack Spec.listed
  rw [List.flatMap_map]
  congr 2

theorem shown_eq (l : List String) : Texts.displayStack (l.map String.toList) = Spec.shown l := by
  unfold Texts.displayStack Spec.shown
  rw [List.flatMap_map]
  simp only [List.append_assoc]

/-- One command. -/
theorem Sim.step (h : Sim w s) (o : Op) (ho : ∀ n, o ≠ .delete n) :
    ∃ w', Script.step w o = .ok ((Spec.step s o).1, w') ∧ Sim w' (Spec.step s o).2 := by
  have hnamed : ∀ (n : String) (f : Nat → Outcome (Res × World)), n ∉ s.known → w.named n f = .ok (.error, w) := by
    intro n f hn
    simp only [World.named, Pool.getTask, h.unknown hn]
  cases o with
  | create n =>
    by_cases hn : n ∈ s.known
    · obtain ⟨e, -, he, hne⟩ := h.known hn
      have hf := (h.found n e).mpr (by
        unfold nm at hne; rw [List.getD_eq_getElem _ _ he] at hne; rw [List.getElem?_eq_getElem he, hne])
      refine ⟨{ w with pool := { w.pool with inst := some (Pool.getInstance w.pool) } }, ?_, ?_⟩
      · simp only [Script.step, Pool.registerTask, hf, Spec.step, if_pos hn]
      · simp only [Spec.step, if_pos hn]
        exact ⟨h.names, h.nodup, h.found, h.alive, h.range, h.stack, h.size⟩
    · have hf := h.unknown hn
      refine ⟨_, by simp only [Script.step, Pool.registerTask, hf, Spec.step, if_neg hn]; rfl, ?_⟩
      simp only [Spec.step, if_neg hn]
      refine ⟨by rw [h.names], ?_, ?_, h.alive, ?_, ?_, h.size⟩
      · rw [List.nodup_append]
        refine ⟨h.nodup, by simp, ?_⟩
        rintro a ha b hb rfl
        rw [List.mem_singleton] at hb
        rw [hb, h.names] at ha; exact hn ha
      · intro m e
        simp only [Pool.getInstance, Option.getD_some, SMap.find_put]
        by_cases hm : m = n
        · subst hm
          rw [if_pos rfl]
          constructor
          · intro he
            obtain rfl := Option.some.inj he
            simp
          · intro he
            by_cases hlt : e < w.names.length
            · rw [List.getElem?_append_left hlt] at he
              rw [← h.names] at hn
              exact absurd (List.mem_of_getElem? he) hn
            · have : e < (w.names ++ [m]).length := (List.getElem?_eq_some_iff.mp he).1
              rw [List.length_append, List.length_singleton] at this
              have : e = w.names.length := by omega
              rw [this]
        · rw [if_neg hm, show SMap.find m (w.pool.inst.getD ⟨[], []⟩).task = some e ↔ _ from h.found m e]
          by_cases hlt : e < w.names.length
          · rw [List.getElem?_append_left hlt]
          · rw [List.getElem?_append_right (by omega), List.getElem?_eq_none (by omega : w.names.length ≤ e)]
            constructor
            · intro hc; cases hc
            · intro hc
              rw [List.getElem?_singleton] at hc
              split_ifs at hc
              exact absurd (Option.some.inj hc).symm hm
      · intro k e he
        rw [List.length_append]
        exact Nat.lt_add_right _ (h.range k e he)
      · intro k
        show (w.sots k).stack.map (nm (w.names ++ [n])) = _
        rw [← h.stack k]
        apply List.map_congr_left
        intro e he
        unfold nm
        rw [List.getD_append _ _ _ _ (h.range k e he)]
  | delete n => exact absurd rfl (ho n)
  | setSize k d =>
    refine ⟨_, rfl, h.names, h.nodup, h.found, h.alive, ?_, ?_, ?_⟩
    · intro j e he
      simp only [World.setStack] at he ⊢
      split_ifs at he with hj
      · exact h.range k e he
      · exact h.range j e he
    · intro j
      simp only [World.setStack, Spec.step]
      split_ifs with hj
      · rw [hj]; exact h.stack k
      · exact h.stack j
    · intro j
      simp only [World.setStack, Spec.step]
      split_ifs with hj
      · rfl
      · exact h.size j
  | getSize k => exact ⟨w, by simp only [Script.step, Spec.step, h.size k], h⟩
  | push k n =>
    by_cases hn : n ∈ s.known
    · obtain ⟨e, hg, he, hne⟩ := h.known hn
      by_cases hz : s.size k = 0
      · have hz' : (w.sots k).nbJoints = 0 := by rw [h.size k, hz]
        refine ⟨w, ?_, ?_⟩
        · simp only [Script.step, World.named, hg, (Sot.C07_push (w.sots k) e).1 hz', Spec.step, if_pos (Or.inr hz : n ∉ s.known ∨ s.size k = 0)]
        · simp only [Spec.step, if_pos (Or.inr hz : n ∉ s.known ∨ s.size k = 0)]; exact h
      · obtain ⟨st, a1, a2, a3⟩ := (Sot.C07_push (w.sots k) e).2 (by rw [h.size k]; exact hz)
        have hc : ¬(n ∉ s.known ∨ s.size k = 0) := by tauto
        refine ⟨w.setStack k st, ?_, ?_⟩
        · simp only [Script.step, World.named, hg, a1, Spec.step, if_neg hc]
        · simp only [Spec.step, if_neg hc]
          refine h.edit k st _ (fun f hf => ?_) ?_ (by rw [a3, h.size k])
          · rw [a2, List.mem_append, List.mem_singleton] at hf
            rcases hf with hf | rfl
            · exact h.range k f hf
            · exact he
          · rw [a2, List.map_append, h.stack k, List.map_singleton, hne]
    · refine ⟨w, by simp only [Script.step, hnamed n _ hn, Spec.step, if_pos (Or.inl hn : n ∉ s.known ∨ s.size k = 0)], ?_⟩
      simp only [Spec.step, if_pos (Or.inl hn : n ∉ s.known ∨ s.size k = 0)]; exact h
  | remove k n =>
    by_cases hn : n ∈ s.known
    · obtain ⟨e, hg, he, rfl⟩ := h.known hn
      refine ⟨_, by simp only [Script.step, World.named, hg, Spec.step, if_neg (not_not.mpr hn)]; rfl, ?_⟩
      simp only [Spec.step, if_neg (not_not.mpr hn)]
      exact h.remove k he
    · refine ⟨w, by simp only [Script.step, hnamed n _ hn, Spec.step, if_pos hn], ?_⟩
      simp only [Spec.step, if_pos hn]; exact h
  | up k n =>
    by_cases hn : n ∈ s.known
    · obtain ⟨e, hg, he, rfl⟩ := h.known hn
      refine ⟨_, by simp only [Script.step, World.named, hg, Spec.step, if_neg (not_not.mpr hn)]; rfl, ?_⟩
      simp only [Spec.step, if_neg (not_not.mpr hn)]
      exact h.up k he
    · refine ⟨w, by simp only [Script.step, hnamed n _ hn, Spec.step, if_pos hn], ?_⟩
      simp only [Spec.step, if_pos hn]; exact h
  | down k n =>
    by_cases hn : n ∈ s.known
    · obtain ⟨e, hg, he, rfl⟩ := h.known hn
      refine ⟨_, by simp only [Script.step, World.named, hg, Spec.step, if_neg (not_not.mpr hn)]; rfl, ?_⟩
      simp only [Spec.step, if_neg (not_not.mpr hn)]
      exact h.down k he
    · refine ⟨w, by simp only [Script.step, hnamed n _ hn, Spec.step, if_pos hn], ?_⟩
      simp only [Spec.step, if_pos hn]; exact h
  | clear k =>
    refine ⟨_, by
      simp only [Script.step]
      rw [if_neg (by rintro ⟨e, -, he⟩; rw [h.alive] at he; simp at he)]; rfl, ?_⟩
    exact h.edit k _ _ (fun e he => by rw [Sot.C07_clear] at he; simp at he) (by rw [Sot.C07_clear]; rfl) (h.size k)
  | list k => exact ⟨w, by simp only [Script.step, h.names_of k, Outcome.map, Spec.step, listed_eq], h⟩
  | display k => exact ⟨w, by simp only [Script.step, h.names_of k, Outcome.map, Spec.step, shown_eq], h⟩

theorem Sim.run (h : Sim w s) (os : List Op) (ho : ∀ n, .delete n ∉ os) :
    ∃ w', Script.run w os = .ok ((Spec.run s os).1, w') ∧ Sim w' (Spec.run s os).2 := by
  induction os generalizing w s with
  | nil => exact ⟨w, rfl, h⟩
  | cons o os ih =>
    obtain ⟨w1, a1, a2⟩ := h.step o (fun n hn => ho n (by simp [hn]))
    obtain ⟨w2, b1, b2⟩ := ih a2 (fun n hn => ho n (List.mem_cons_of_mem _ hn))
    exact ⟨w2, by simp only [Script.run, a1, Outcome.bind, b1, Outcome.map, Spec.run], b2⟩

/-! ### Properties -/

/-- C155. A script that deletes no task never fails: each command answers as the specification, where the stacks are lists of names. -/
theorem C155_script (os : List Op) (ho : ∀ n, .delete n ∉ os) :
    ∃ w, run World.start os = .ok ((Spec.run Spec.World.start os).1, w) := by
  obtain ⟨w, h, -⟩ := sim_start.run os ho
  exact ⟨w, h⟩

/-- C155. The text of `list` is read by Python as the tuple of the names, in the order of the stack, when the names have no quote, backslash or
end of line. -/
theorem C155_list (l : List String) (h : ∀ n ∈ l, Texts.Simple '"' n.toList) (m : List (List Char)) :
    Texts.Reads '"' '(' ')' (Spec.listed l) m ↔ m = l.map String.toList := by
  rw [← listed_eq]
  exact Texts.C119_list _ (by simpa using h) m

/-- The stack a command is given to. -/
def Op.stack? : Op → Option Nat
  | .create _ | .delete _ => none
  | .setSize k _ | .getSize k | .push k _ | .remove k _ | .up k _ | .down k _ | .clear k | .list k | .display k => some k

/-- C155. A stack is changed only by the commands given to it: what it answers depends on them and on the creations only. -/
theorem C155_independent (os : List Op) (k : Nat) :
    (Spec.run Spec.World.start os).2.stack k =
      (Spec.run Spec.World.start (os.filter fun o => o.stack? = none ∨ o.stack? = some k)).2.stack k := by
  have key : ∀ (os : List Op) (a b : Spec.World), a.known = b.known → a.size k = b.size k → a.stack k = b.stack k →
      (Spec.run a os).2.stack k = (Spec.run b (os.filter fun o => o.stack? = none ∨ o.stack? = some k)).2.stack k := by
    intro os
    induction os with
    | nil => intro a b _ _ h; exact h
    | cons o os ih =>
      intro a b h1 h2 h3
      have put1 : ∀ (s : Spec.World) (l : List String), (s.put k l).stack k = l := fun s l => if_pos rfl
      rw [List.filter_cons]
      split_ifs with hf
      · rw [decide_eq_true_eq] at hf
        simp only [Spec.run]
        cases o with
        | create n =>
          simp only [Spec.step, h1]
          split_ifs
          · exact ih a b h1 h2 h3
          · exact ih _ _ (by simp [h1]) h2 h3
        | delete n => exact ih a b h1 h2 h3
        | setSize j d =>
          obtain rfl : j = k := by simpa [Op.stack?] using hf
          exact ih _ _ h1 (by simp [Spec.step]) h3
        | getSize j => exact ih _ _ h1 h2 h3
        | push j n =>
          obtain rfl : j = k := by simpa [Op.stack?] using hf
          simp only [Spec.step, h1, h2, h3]
          split_ifs <;> first
            | exact ih a b h1 h2 h3
            | exact ih _ _ h1 h2 (by rw [put1, put1])
        | remove j n =>
          obtain rfl : j = k := by simpa [Op.stack?] using hf
          simp only [Spec.step, h1, h3]
          split_ifs <;> first
            | exact ih a b h1 h2 h3
            | exact ih _ _ h1 h2 (by rw [put1, put1])
        | up j n =>
          obtain rfl : j = k := by simpa [Op.stack?] using hf
          simp only [Spec.step, h1, h3]
          split_ifs <;> first
            | exact ih a b h1 h2 h3
            | exact ih _ _ h1 h2 (by rw [put1, put1])
        | down j n =>
          obtain rfl : j = k := by simpa [Op.stack?] using hf
          simp only [Spec.step, h1, h3]
          split_ifs <;> first
            | exact ih a b h1 h2 h3
            | exact ih _ _ h1 h2 (by rw [put1, put1])
        | clear j =>
          obtain rfl : j = k := by simpa [Op.stack?] using hf
          exact ih _ _ h1 h2 (by simp only [Spec.step]; rw [put1, put1])
        | list j => exact ih _ _ h1 h2 h3
        | display j => exact ih _ _ h1 h2 h3
      · rw [decide_eq_true_eq, not_or] at hf
        simp only [Spec.run]
        have put2 : ∀ (j : Nat) (l : List String), j ≠ k → (a.put j l).stack k = b.stack k :=
          fun j l hj => (if_neg (Ne.symm hj)).trans h3
        cases o with
        | create n => simp [Op.stack?] at hf
        | delete n => simp [Op.stack?] at hf
        | setSize j d =>
          have hj : j ≠ k := by simpa [Op.stack?] using hf
          exact ih _ _ h1 (by simp [Spec.step, Ne.symm hj, h2]) h3
        | getSize j => exact ih _ _ h1 h2 h3
        | push j n =>
          have hj : j ≠ k := by simpa [Op.stack?] using hf
          simp only [Spec.step]
          split_ifs <;> first
            | exact ih a b h1 h2 h3
            | exact ih _ _ h1 h2 (put2 j _ hj)
        | remove j n =>
          have hj : j ≠ k := by simpa [Op.stack?] using hf
          simp only [Spec.step]
          split_ifs <;> first
            | exact ih a b h1 h2 h3
            | exact ih _ _ h1 h2 (put2 j _ hj)
        | up j n =>
          have hj : j ≠ k := by simpa [Op.stack?] using hf
          simp only [Spec.step]
          split_ifs <;> first
            | exact ih a b h1 h2 h3
            | exact ih _ _ h1 h2 (put2 j _ hj)
        | down j n =>
          have hj : j ≠ k := by simpa [Op.stack?] using hf
          simp only [Spec.step]
          split_ifs <;> first
            | exact ih a b h1 h2 h3
            | exact ih _ _ h1 h2 (put2 j _ hj)
        | clear j =>
          have hj : j ≠ k := by simpa [Op.stack?] using hf
          exact ih _ _ h1 h2 (put2 j _ hj)
        | list j => exact ih _ _ h1 h2 h3
        | display j => exact ih _ _ h1 h2 h3
  exact key os _ _ rfl rfl rfl

theorem run_append (w : World) (a b : List Op) :
    run w (a ++ b) = (run w a).bind fun r => (run r.2 b).map fun q => (r.1 ++ q.1, q.2) := by
  induction a generalizing w with
  | nil => simp only [List.nil_append, run, Outcome.bind]; cases run w b <;> rfl
  | cons o a ih =>
    simp only [List.cons_append, run]
    cases hs : step w o with
    | ok r =>
      simp only [Outcome.bind, ih]
      cases run r.2 a with
      | ok q => simp only [Outcome.bind, Outcome.map]; cases run q.2 b <;> rfl
      | throw => rfl
      | ub => rfl
    | throw => rfl
    | ub => rfl

/-- C155, disagreement. A task that is deleted stays in the pool and in the stacks: its name cannot be used again for a task, a command that
designates it is undefined, and so are the listing, the display and the clearing of the stacks where it is. The other stacks are listed as before. -/
theorem C155_deleted_counterexample (os : List Op) (ho : ∀ n, .delete n ∉ os) (n : String)
    (hn : n ∈ (Spec.run Spec.World.start os).2.known) (k : Nat) :
    (∃ rs w, run World.start (os ++ [.delete n, .create n]) = .ok (rs ++ [.done, .error], w)) ∧
    (∀ o ∈ [Op.push k n, .remove k n, .up k n, .down k n], run World.start (os ++ [.delete n, o]) = .ub) ∧
    (n ∈ (Spec.run Spec.World.start os).2.stack k →
      ∀ o ∈ [Op.list k, .display k, .clear k], run World.start (os ++ [.delete n, o]) = .ub) ∧
    (n ∉ (Spec.run Spec.World.start os).2.stack k →
      ∃ rs w, run World.start (os ++ [.delete n, .list k]) = .ok (rs ++ [.done, .text (Spec.listed ((Spec.run Spec.World.start os).2.stack k))], w)) := by
  obtain ⟨w, hw, h⟩ := sim_start.run os ho
  generalize (Spec.run Spec.World.start os).2 = S at *
  obtain ⟨e, hg, he, hne⟩ := h.known hn
  have hf := (h.found n e).mpr (by
    unfold nm at hne; rw [List.getD_eq_getElem _ _ he] at hne; rw [List.getElem?_eq_getElem he, hne])
  let w' : World := { w with pool := { w.pool with deleted := [e] } }
  have hd : step w (.delete n) = .ok (.done, w') := by
    simp only [step, hf, h.alive, List.not_mem_nil, if_false, Pool.step, List.nil_append]; rfl
  have hrun : ∀ o, run World.start (os ++ [.delete n, o]) =
      (step w' o).map fun r => ((Spec.run Spec.World.start os).1 ++ [.done, r.1], r.2) := by
    intro o
    rw [run_append, hw]
    simp only [Outcome.bind, run, hd]
    cases step w' o <;> rfl
  have hf' : SMap.find n (Pool.getInstance w'.pool).task = some e := hf
  have hub : Pool.getTask w'.pool n = .ub := by simp only [Pool.getTask, hf']; simp [w']
  refine ⟨⟨(Spec.run Spec.World.start os).1, { w' with pool := { w'.pool with inst := some (Pool.getInstance w'.pool) } }, ?_⟩, ?_, ?_, ?_⟩
  · rw [hrun]
    simp only [step, Pool.registerTask, hf', Outcome.map]
  · intro o hm
    rw [hrun]
    simp only [List.mem_cons, List.not_mem_nil, or_false] at hm
    rcases hm with rfl | rfl | rfl | rfl <;> simp only [step, World.named, hub, Outcome.map]
  · intro hk o hm
    have hin : ∃ f ∈ (w'.sots k).stack, f ∈ w'.pool.deleted := by
      refine ⟨e, ?_, by simp [w']⟩
      rw [← h.stack k, ← hne, h.mem (h.range k) he] at hk
      exact hk
    rw [hrun]
    simp only [List.mem_cons, List.not_mem_nil, or_false] at hm
    rcases hm with rfl | rfl | rfl <;> simp only [step, World.namesOf, if_pos hin, Outcome.map]
  · intro hk
    have hout : ¬∃ f ∈ (w'.sots k).stack, f ∈ w'.pool.deleted := by
      rintro ⟨f, hf1, hf2⟩
      obtain rfl : f = e := by simpa [w'] using hf2
      rw [← h.stack k, ← hne, h.mem (h.range k) he] at hk
      exact hk hf1
    refine ⟨(Spec.run Spec.World.start os).1, w', ?_⟩
    rw [hrun]
    simp only [step, World.namesOf, if_neg hout, Outcome.map]
    rw [← listed_eq, ← h.stack k, List.map_map]
    rfl

/-- C155. A script with two stacks: the size first, an unknown name refused, tasks exchanged. -/
theorem C155_case :
    ∃ w, run World.start [.create "a", .push 0 "a", .setSize 0 6, .push 0 "a", .push 0 "b", .create "b", .create "b", .push 0 "b", .up 0 "b",
      .setSize 1 6, .push 1 "a", .list 0, .list 1] =
      .ok ([.done, .error, .done, .done, .error, .done, .error, .done, .done, .done, .done, .text "( \"b\", \"a\", )".toList,
        .text "( \"a\", )".toList], w) := by
  obtain ⟨w, h⟩ := C155_script [.create "a", .push 0 "a", .setSize 0 6, .push 0 "a", .push 0 "b", .create "b", .create "b", .push 0 "b", .up 0 "b",
      .setSize 1 6, .push 1 "a", .list 0, .list 1] (by simp)
  refine ⟨w, h.trans ?_⟩
  simp [Spec.run, Spec.step, Spec.World.start, Spec.World.put, Spec.raise, Spec.listed]

end Verif.Script
