import Verif.StopWatch.Model
import Verif.Common.Lists
import Mathlib.Algebra.BigOperators.Group.List.Basic
import Mathlib.Algebra.Order.Field.Rat
import Mathlib.Tactic.Linarith
import Mathlib.Tactic.NormNum

/-!
# C61 and C91: the stopwatch
-/

namespace Verif.StopWatch

variable {K F : Type} [LinearOrder K] [Field F] [LinearOrder F] [IsStrictOrderedRing F]

/-! ### What a name is timed to, from the operations alone -/

/-- What is timed under one name: whether the watch runs and in which mode, when the name was last started, and the lapses
recorded since it was last reset. -/
structure Watch (F : Type) where
  active : Bool
  mode : Mode
  known : Bool
  since : Option F
  lapses : List F

/-- The effect of an operation other than `pause` on what is timed under the name `p`. -/
def watch (cps : F) (p : K) (w : Watch F) : Op K F → Watch F
  | .start n t =>
    if w.active = true ∧ n = p then
      if w.mode = .none then { w with known := true } else { w with known := true, since := some t }
    else w
  | .stop n t =>
    if w.active = true ∧ n = p ∧ w.mode ≠ .none then
      match w.since with
      | none => w
      | some a => { w with lapses := w.lapses ++ [if w.mode = .cpuTime then (t - a) / cps else t - a] }
    else w
  | .reset n => if w.active = true ∧ n = p then { w with since := none, lapses := [] } else w
  | .resetAll => if w.active = true then { w with since := none, lapses := [] } else w
  | .setMode m => { w with mode := m }
  | .turnOn => { w with active := true }
  | .turnOff => { w with active := false }
  | .pause _ _ => w

/-- What is timed under the name `p` after a history. -/
def watched (cps : F) (p : K) (mode : Mode) (h : List (Op K F)) : Watch F :=
  h.foldl (watch cps p) ⟨true, mode, false, none, []⟩

/-- No pause of `p`, and no start of `p` when the clock reads zero. -/
def Plain (p : K) : Op K F → Prop
  | .start n t => n = p → t ≠ 0
  | .pause n _ => n ≠ p
  | _ => True

/-! ### Lemmas -/

/-- The step of the minimum. -/
def minStep (m x : F) : F := if x ≤ m ∨ m = 0 then x else m

/-- The step of the maximum. -/
def maxStep (m x : F) : F := if x ≥ m then x else m

/-- The figures of a record are those of the lapses. -/
structure Stats (q : Perf F) (l : List F) : Prop where
  total : q.total = l.sum
  stops : q.stops = l.length
  last : q.last = l.getLast?.getD 0
  max : q.max = l.foldl maxStep 0
  min : q.min = l.foldl minStep 0

theorem Stats.create : Stats (Perf.create : Perf F) [] := ⟨rfl, rfl, rfl, rfl, rfl⟩

theorem Stats.record {q : Perf F} {l : List F} (h : Stats q l) (x : F) : Stats (q.record x) (l ++ [x]) := by
  refine ⟨?_, ?_, ?_, ?_, ?_⟩
  · simp [Perf.record, h.total]
  · simp [Perf.record, h.stops]
  · simp [Perf.record]
  · simp [Perf.record, h.max, List.foldl_append, maxStep]
  · simp [Perf.record, h.min, List.foldl_append, minStep]

/-- The model and what is timed agree. -/
def Rel (p : K) (w : Watch F) (s : State K F) : Prop :=
  s.active = w.active ∧ s.mode = w.mode ∧ (∀ a, w.since = some a → a ≠ 0) ∧
    match s.records.find p with
    | none => w.known = false ∧ w.since = none ∧ w.lapses = []
    | some q => w.known = true ∧ q.clockStart = w.since.getD 0 ∧ Stats q w.lapses

theorem find_resetLoop (p : K) (names : List K) :
    ∀ s : State K F, s.active = true →
      (resetLoop s names).active = true ∧ (resetLoop s names).mode = s.mode ∧
      (resetLoop s names).records.find p
        = if p ∈ names then (s.records.find p).map fun _ => Perf.create else s.records.find p := by
  induction names with
  | nil => intro s hs; simp [resetLoop, hs]
  | cons n names ih =>
    intro s hs
    have a : (reset s n).state.active = true ∧ (reset s n).state.mode = s.mode := by
      unfold reset
      simp only [hs, not_true_eq_false, if_false]
      split <;> simp [hs]
    obtain ⟨i1, i2, i3⟩ := ih (reset s n).state a.1
    rw [resetLoop]
    refine ⟨i1, i2.trans a.2, ?_⟩
    rw [i3]
    have f : (reset s n).state.records.find p
        = if p = n then (s.records.find p).map fun _ => Perf.create else s.records.find p := by
      unfold reset
      simp only [hs, not_true_eq_false, if_false]
      split
      · rename_i h
        by_cases e : p = n
        · subst e; simp [h]
        · simp [e]
      · rename_i h
        by_cases e : p = n
        · subst e; simp [h, SMap.find_put]
        · simp [e, SMap.find_put]
    rw [f]
    by_cases e : p = n
    · subst e
      simp only [if_true, List.mem_cons, true_or]
      split
      · rw [Option.map_map]; rfl
      · rfl
    · simp [e]

theorem mem_keys {p : K} {m : SMap K (Perf F)} {q : Perf F} (h : m.find p = some q) : p ∈ m.map (·.1) :=
  List.mem_map.mpr ⟨_, SMap.find_some_mem h, rfl⟩

theorem rel_step (cps : F) (p : K) (w : Watch F) (s : State K F) (h : Rel p w s) (o : Op K F) (ho : Plain p o) :
    Rel p (watch cps p w o) (step cps s o).state := by
  obtain ⟨ha, hm, hz, hf⟩ := h
  obtain ⟨wa, wm, wk, ws, wl⟩ := w
  obtain ⟨sa, sm, sr⟩ := s
  simp only at ha hm hz hf
  subst ha hm
  cases sa with
  | false => cases o <;> exact ⟨rfl, rfl, hz, hf⟩
  | true =>
  cases o with
  | start n t =>
    simp only [step, start, watch, not_true_eq_false, if_false, true_and]
    by_cases e : n = p
    · subst e
      simp only [if_true]
      have tz : t ≠ 0 := ho rfl
      cases sm with
      | none =>
        refine ⟨rfl, rfl, hz, ?_⟩
        simp only [takeTime, SMap.find_put, if_true]
        cases fd : sr.find n with
        | none =>
          rw [fd] at hf
          obtain ⟨-, h2, h3⟩ := hf
          subst h2 h3
          exact ⟨trivial, rfl, Stats.create⟩
        | some q =>
          rw [fd] at hf
          exact ⟨trivial, hf.2.1, hf.2.2⟩
      | cpuTime =>
        refine ⟨rfl, rfl, by simpa using tz, ?_⟩
        simp only [takeTime, SMap.find_put, if_true]
        cases fd : sr.find n with
        | none =>
          rw [fd] at hf
          obtain ⟨-, h2, h3⟩ := hf
          subst h2 h3
          exact ⟨by simp, by simp, ⟨rfl, rfl, rfl, rfl, rfl⟩⟩
        | some q =>
          rw [fd] at hf
          exact ⟨by simp, by simp, ⟨hf.2.2.total, hf.2.2.stops, hf.2.2.last, hf.2.2.max, hf.2.2.min⟩⟩
      | realTime =>
        refine ⟨rfl, rfl, by simpa using tz, ?_⟩
        simp only [takeTime, SMap.find_put, if_true]
        cases fd : sr.find n with
        | none =>
          rw [fd] at hf
          obtain ⟨-, h2, h3⟩ := hf
          subst h2 h3
          exact ⟨by simp, by simp, ⟨rfl, rfl, rfl, rfl, rfl⟩⟩
        | some q =>
          rw [fd] at hf
          exact ⟨by simp, by simp, ⟨hf.2.2.total, hf.2.2.stops, hf.2.2.last, hf.2.2.max, hf.2.2.min⟩⟩
    · simp only [if_neg e]
      split <;> exact ⟨rfl, rfl, hz, by simpa only [SMap.find_put, if_neg (Ne.symm e)] using hf⟩
  | stop n t =>
    simp only [step, stop, watch, not_true_eq_false, if_false, true_and]
    by_cases e : n = p
    · subst e
      by_cases md : sm = .none
      · subst md
        simp only [ne_eq, not_true_eq_false, and_false, if_false]
        exact ⟨rfl, rfl, hz, hf⟩
      · have tk : takeTime sm t = some t := by revert md; cases sm <;> simp [takeTime]
        simp only [tk, ne_eq, md, not_false_eq_true, and_self, if_true]
        cases fd : sr.find n with
        | none =>
          rw [fd] at hf
          obtain ⟨h1, h2, h3⟩ := hf
          subst h2
          exact ⟨rfl, rfl, hz, by simp only [fd]; exact ⟨h1, trivial, h3⟩⟩
        | some q =>
          rw [fd] at hf
          obtain ⟨k1, k2, k3⟩ := hf
          cases ws with
          | none =>
            have : q.clockStart = 0 := k2
            simp only [this, if_true]
            exact ⟨rfl, rfl, hz, by simp only [fd]; exact ⟨k1, k2, k3⟩⟩
          | some a =>
            have c : q.clockStart = a := k2
            have na : a ≠ 0 := hz a rfl
            simp only [c, if_neg na]
            refine ⟨rfl, rfl, hz, ?_⟩
            simp only [SMap.find_put, if_true]
            exact ⟨k1, k2, k3.record _⟩
    · simp only [e, false_and, if_false]
      repeat' split
      all_goals first
        | exact ⟨rfl, rfl, hz, hf⟩
        | exact ⟨rfl, rfl, hz, by simpa only [SMap.find_put, if_neg (Ne.symm e)] using hf⟩
  | pause n t =>
    have e : n ≠ p := ho
    simp only [step, pause, watch, not_true_eq_false, if_false]
    repeat' split
    all_goals first
      | exact ⟨rfl, rfl, hz, hf⟩
      | exact ⟨rfl, rfl, hz, by simpa only [SMap.find_put, if_neg (Ne.symm e)] using hf⟩
  | reset n =>
    simp only [step, reset, watch, not_true_eq_false, if_false, true_and]
    by_cases e : n = p
    · subst e
      simp only [if_true]
      cases fd : sr.find n with
      | none =>
        rw [fd] at hf
        exact ⟨rfl, rfl, by simp, by simp only [fd]; exact ⟨hf.1, trivial, trivial⟩⟩
      | some q =>
        rw [fd] at hf
        refine ⟨rfl, rfl, by simp, ?_⟩
        simp only [SMap.find_put, if_true]
        exact ⟨hf.1, rfl, Stats.create⟩
    · simp only [if_neg e]
      repeat' split
      all_goals first
        | exact ⟨rfl, rfl, hz, hf⟩
        | exact ⟨rfl, rfl, hz, by simpa only [SMap.find_put, if_neg (Ne.symm e)] using hf⟩
  | resetAll =>
    simp only [step, resetAll, watch, not_true_eq_false, if_false, if_true]
    obtain ⟨r1, r2, r3⟩ := find_resetLoop p (sr.map (·.1)) ⟨true, sm, sr⟩ rfl
    refine ⟨r1, r2, by simp, ?_⟩
    rw [r3]
    cases fd : sr.find p with
    | none =>
      rw [fd] at hf
      simp only [Option.map_none, ite_self]
      exact ⟨hf.1, trivial, trivial⟩
    | some q =>
      rw [fd] at hf
      simp only [mem_keys fd, if_true, Option.map_some]
      exact ⟨hf.1, rfl, Stats.create⟩
  | setMode m => exact ⟨rfl, rfl, hz, hf⟩
  | turnOn => exact ⟨rfl, rfl, hz, hf⟩
  | turnOff => exact ⟨rfl, rfl, hz, hf⟩

theorem rel_run (cps : F) (p : K) (mode : Mode) (h : List (Op K F)) (hh : ∀ o ∈ h, Plain p o) :
    Rel p (watched cps p mode h) (run cps (State.create mode) h) := by
  suffices H : ∀ (h : List (Op K F)) (w : Watch F) (s : State K F), Rel p w s → (∀ o ∈ h, Plain p o) →
      Rel p (h.foldl (watch cps p) w) (run cps s h) by
    exact H h _ _ ⟨rfl, rfl, by simp, by simp [State.create, SMap.find]⟩ hh
  intro h
  induction h with
  | nil => exact fun w s hr _ => hr
  | cons o h ih =>
    intro w s hr hp
    exact ih _ _ (rel_step cps p w s hr o (hp o (List.mem_cons_self ..))) fun o' ho' => hp o' (List.mem_cons_of_mem _ ho')

/-- The record of a name once known. -/
theorem stats_run (cps : F) (p : K) (mode : Mode) (h : List (Op K F)) (hh : ∀ o ∈ h, Plain p o)
    (hk : (watched cps p mode h).known = true) :
    ∃ q, (run cps (State.create mode) h).records.find p = some q ∧ Stats q (watched cps p mode h).lapses := by
  obtain ⟨-, -, -, hf⟩ := rel_run cps p mode h hh
  cases fd : (run cps (State.create mode) h).records.find p with
  | none => rw [fd] at hf; rw [hf.1] at hk; simp at hk
  | some q => rw [fd] at hf; exact ⟨q, rfl, hf.2.2⟩

theorem le_foldl_max (l : List F) : ∀ m : F, m ≤ l.foldl maxStep m ∧ ∀ x ∈ l, x ≤ l.foldl maxStep m := by
  induction l with
  | nil => intro m; simp
  | cons a l ih =>
    intro m
    rw [List.foldl_cons]
    have c : m ≤ maxStep m a ∧ a ≤ maxStep m a := by
      unfold maxStep
      split
      · rename_i h; exact ⟨h, le_rfl⟩
      · rename_i h; exact ⟨le_rfl, (not_le.mp h).le⟩
    obtain ⟨i1, i2⟩ := ih (maxStep m a)
    refine ⟨c.1.trans i1, ?_⟩
    intro x hx
    rcases List.mem_cons.mp hx with rfl | hx
    · exact c.2.trans i1
    · exact i2 x hx

theorem foldl_max_mem (l : List F) : ∀ m : F, l.foldl maxStep m = m ∨ l.foldl maxStep m ∈ l := by
  induction l with
  | nil => intro m; simp
  | cons a l ih =>
    intro m
    rw [List.foldl_cons]
    rcases ih (maxStep m a) with h | h
    · rw [h]
      unfold maxStep
      split
      · exact .inr (List.mem_cons_self ..)
      · exact .inl rfl
    · exact .inr (List.mem_cons_of_mem _ h)

theorem foldl_min_pos (l : List F) : ∀ m : F, 0 < m → (∀ x ∈ l, 0 < x) →
    (l.foldl minStep m ≤ m ∧ ∀ x ∈ l, l.foldl minStep m ≤ x) ∧ (l.foldl minStep m = m ∨ l.foldl minStep m ∈ l) := by
  induction l with
  | nil => intro m _ _; simp
  | cons a l ih =>
    intro m hm hl
    rw [List.foldl_cons]
    have ap := hl a (List.mem_cons_self ..)
    have c : 0 < minStep m a ∧ minStep m a ≤ m ∧ minStep m a ≤ a ∧ (minStep m a = m ∨ minStep m a = a) := by
      unfold minStep
      split
      · rename_i h
        rcases h with h | h
        · exact ⟨ap, h, le_rfl, .inr rfl⟩
        · exact absurd h hm.ne'
      · rename_i h
        rw [not_or, not_le] at h
        exact ⟨hm, le_rfl, h.1.le, .inl rfl⟩
    obtain ⟨⟨i1, i2⟩, i3⟩ := ih (minStep m a) c.1 fun x hx => hl x (List.mem_cons_of_mem _ hx)
    refine ⟨⟨i1.trans c.2.1, ?_⟩, ?_⟩
    · intro x hx
      rcases List.mem_cons.mp hx with rfl | hx
      · exact i1.trans c.2.2.1
      · exact i2 x hx
    · rcases i3 with h | h
      · rw [h]
        rcases c.2.2.2 with h | h
        · exact .inl h
        · rw [h]; exact .inr (List.mem_cons_self ..)
      · exact .inr (List.mem_cons_of_mem _ h)

/-! ### C61 -/

/-- After any history in which the name is known and was not paused: the total is the sum of the lapses recorded, the last
is the last lapse. -/
theorem C61_total_and_last (cps : F) (p : K) (mode : Mode) (h : List (Op K F)) (hh : ∀ o ∈ h, Plain p o)
    (hk : (watched cps p mode h).known = true) :
    getTotal (run cps (State.create mode) h) p = some (watched cps p mode h).lapses.sum ∧
      (∀ x, (watched cps p mode h).lapses.getLast? = some x → getLast (run cps (State.create mode) h) p = some x) := by
  obtain ⟨q, hq, st⟩ := stats_run cps p mode h hh hk
  refine ⟨by simp [getTotal, hq, st.total], fun x hx => by simp [getLast, hq, st.last, hx]⟩

/-- The count is the number of lapses: the average is their mean. -/
theorem C61_average (cps : F) (p : K) (mode : Mode) (h : List (Op K F)) (hh : ∀ o ∈ h, Plain p o)
    (hk : (watched cps p mode h).known = true) :
    getAverage (run cps (State.create mode) h) p
      = some (if (watched cps p mode h).lapses = [] then none
          else some ((watched cps p mode h).lapses.sum / ((watched cps p mode h).lapses.length : F))) := by
  obtain ⟨q, hq, st⟩ := stats_run cps p mode h hh hk
  simp only [getAverage, hq, Option.map_some, st.total, st.stops, List.length_eq_zero_iff]

/-- Once a lapse is recorded, the minimum is at most the last lapse, which is at most the maximum. -/
theorem C61_min_last_max (cps : F) (p : K) (mode : Mode) (h : List (Op K F)) (hh : ∀ o ∈ h, Plain p o)
    (hk : (watched cps p mode h).known = true) (x : F) (hx : (watched cps p mode h).lapses.getLast? = some x) :
    ∃ a b, getMin (run cps (State.create mode) h) p = some a ∧ getMax (run cps (State.create mode) h) p = some b ∧
      getLast (run cps (State.create mode) h) p = some x ∧ a ≤ x ∧ x ≤ b := by
  obtain ⟨q, hq, st⟩ := stats_run cps p mode h hh hk
  refine ⟨q.min, q.max, by simp [getMin, hq], by simp [getMax, hq], by simp [getLast, hq, st.last, hx], ?_, ?_⟩
  · rw [st.min]
    obtain ⟨l, hl⟩ := List.getLast?_eq_some_iff.mp hx
    rw [hl, List.foldl_append, List.foldl_cons, List.foldl_nil]
    unfold minStep
    split
    · exact le_rfl
    · rename_i h'
      rw [not_or, not_le] at h'
      exact h'.1.le
  · rw [st.max]
    exact (le_foldl_max _ 0).2 x (List.mem_of_getLast? hx)

/-- The names not known raise an exception, and only they do. -/
theorem C61_unknown (cps : F) (p : K) (mode : Mode) (h : List (Op K F)) (hh : ∀ o ∈ h, Plain p o) :
    (watched cps p mode h).known = false ↔ getTotal (run cps (State.create mode) h) p = none := by
  obtain ⟨-, -, -, hf⟩ := rel_run cps p mode h hh
  unfold getTotal
  cases fd : (run cps (State.create mode) h).records.find p with
  | none => rw [fd] at hf; simp [hf.1]
  | some q => rw [fd] at hf; simp [hf.1]

/-- Laps timed one after the other. -/
def laps (p : K) (l : List (F × F)) : List (Op K F) := l.flatMap fun ab => [.start p ab.1, .stop p ab.2]

/-- The lapses of laps timed in real time are the differences of the readings. -/
theorem C61_laps (cps : F) (p : K) (l : List (F × F)) :
    (watched cps p .realTime (laps p l)).lapses = l.map (fun ab => ab.2 - ab.1) := by
  suffices H : ∀ (l : List (F × F)) (w : Watch F), w.active = true → w.mode = .realTime →
      ((laps p l).foldl (watch cps p) w).lapses = w.lapses ++ l.map (fun ab => ab.2 - ab.1) by
    have := H l ⟨true, .realTime, false, none, []⟩ rfl rfl
    rwa [List.nil_append] at this
  intro l
  induction l with
  | nil => intro w _ _; simp [laps]
  | cons ab l ih =>
    intro w ha hm
    have e : laps p (ab :: l) = .start p ab.1 :: .stop p ab.2 :: laps p l := rfl
    rw [e, List.foldl_cons, List.foldl_cons]
    have s1 : watch cps p (watch cps p w (.start p ab.1)) (.stop p ab.2)
        = { w with known := true, since := some ab.1, lapses := w.lapses ++ [ab.2 - ab.1] } := by
      simp [watch, ha, hm]
    rw [s1, ih]
    · simp
    · exact ha
    · exact hm

/-- An operation under another name changes nothing of what is read under this one. -/
theorem C61_other_names (cps : F) (p n : K) (hn : n ≠ p) (s : State K F) (t : F) :
    (start s n t).state.records.find p = s.records.find p ∧ (stop cps s n t).state.records.find p = s.records.find p ∧
      (pause s n t).state.records.find p = s.records.find p ∧ (reset s n).state.records.find p = s.records.find p := by
  have ne : p ≠ n := Ne.symm hn
  refine ⟨?_, ?_, ?_, ?_⟩
  · simp only [start]
    split
    · rfl
    · split <;> simp [SMap.find_put, ne]
  · simp only [stop]
    repeat' split
    all_goals simp [SMap.find_put, ne]
  · simp only [pause]
    repeat' split
    all_goals simp [SMap.find_put, ne]
  · simp only [reset]
    repeat' split
    all_goals simp [SMap.find_put, ne]

/-! ### C91 -/

/-- The maximum is the greatest lapse recorded, when one is not negative. -/
theorem C91_max (cps : F) (p : K) (mode : Mode) (h : List (Op K F)) (hh : ∀ o ∈ h, Plain p o)
    (hk : (watched cps p mode h).known = true) (hx : ∃ x ∈ (watched cps p mode h).lapses, 0 ≤ x) :
    ∃ b, getMax (run cps (State.create mode) h) p = some b ∧ b ∈ (watched cps p mode h).lapses ∧
      ∀ y ∈ (watched cps p mode h).lapses, y ≤ b := by
  obtain ⟨q, hq, st⟩ := stats_run cps p mode h hh hk
  have b := le_foldl_max (watched cps p mode h).lapses 0
  refine ⟨q.max, by simp [getMax, hq], ?_, fun y hy => st.max ▸ b.2 y hy⟩
  rw [st.max]
  rcases foldl_max_mem (watched cps p mode h).lapses 0 with e | e
  · obtain ⟨x, hx, h0⟩ := hx
    have : x = 0 := le_antisymm (e ▸ b.2 x hx) h0
    rw [e]
    exact this ▸ hx
  · exact e

/-- The minimum is the smallest lapse recorded, when all of them are positive. -/
theorem C91_min (cps : F) (p : K) (mode : Mode) (h : List (Op K F)) (hh : ∀ o ∈ h, Plain p o)
    (hk : (watched cps p mode h).known = true) (hne : (watched cps p mode h).lapses ≠ [])
    (hx : ∀ x ∈ (watched cps p mode h).lapses, 0 < x) :
    ∃ b, getMin (run cps (State.create mode) h) p = some b ∧ b ∈ (watched cps p mode h).lapses ∧
      ∀ y ∈ (watched cps p mode h).lapses, b ≤ y := by
  obtain ⟨q, hq, st⟩ := stats_run cps p mode h hh hk
  refine ⟨q.min, by simp [getMin, hq], ?_⟩
  rw [st.min]
  generalize (watched cps p mode h).lapses = l at *
  cases l with
  | nil => exact absurd rfl hne
  | cons a l =>
    have f : minStep 0 a = a := by simp [minStep]
    rw [List.foldl_cons, f]
    obtain ⟨⟨i1, i2⟩, i3⟩ := foldl_min_pos l a (hx a (List.mem_cons_self ..)) fun x h => hx x (List.mem_cons_of_mem _ h)
    refine ⟨?_, ?_⟩
    · rcases i3 with h | h
      · rw [h]; exact List.mem_cons_self ..
      · exact List.mem_cons_of_mem _ h
    · intro y hy
      rcases List.mem_cons.mp hy with rfl | hy
      · exact i1
      · exact i2 y hy

/-- A lapse of zero is forgotten by the minimum: a lap shorter than the resolution of the clock, then one of five seconds,
leave a minimum of five seconds. -/
theorem C91_zero_lapse_counterexample (p : K) :
    getMin (run (1 : ℚ) (State.create .realTime) (laps p [(10, 10), (20, 25)])) p = some 5 ∧
      (0 : ℚ) ∈ (watched 1 p .realTime (laps p [(10, 10), (20, 25)])).lapses := by
  constructor
  · simp [laps, run, step, start, stop, State.create, takeTime, Perf.create, Perf.record, SMap.find, SMap.put, getMin]
    norm_num
  · rw [C61_laps]; simp

/-- A lap started when the clock reads zero, as the processor clock of a process that has just begun does, is not
recorded. -/
theorem C91_clock_zero_counterexample (p : K) :
    getTotal (run (1 : ℚ) (State.create .cpuTime) [.start p 0, .stop p 7]) p = some 0 := by
  simp [run, step, start, stop, State.create, takeTime, Perf.create, SMap.find, SMap.put, getTotal]

/-- In real time a pause subtracts a reading of one clock from a reading of another: the total becomes negative. -/
theorem C91_pause_counterexample (p : K) :
    getTotal (run (1 : ℚ) (State.create .realTime) [.start p 1000, .pause p 3]) p = some (-997) := by
  simp [run, step, start, pause, State.create, takeTime, Perf.create, SMap.find, SMap.put, getTotal]
  norm_num

/-- Turned off, the operations change nothing and raise nothing. -/
theorem C91_turned_off (cps : F) (s : State K F) (hs : s.active = false) (n : K) (t : F) :
    start s n t = ⟨s, false⟩ ∧ stop cps s n t = ⟨s, false⟩ ∧ pause s n t = ⟨s, false⟩ ∧ reset s n = ⟨s, false⟩ ∧
      resetAll s = ⟨s, false⟩ := by
  simp [start, stop, pause, reset, resetAll, hs]

/-- A stop, a pause or a reset of a name which was never started raises an exception and changes nothing. -/
theorem C91_never_started (cps : F) (s : State K F) (hs : s.active = true) (n : K) (hn : s.records.find n = none) (t : F) :
    stop cps s n t = ⟨s, true⟩ ∧ pause s n t = ⟨s, true⟩ ∧ reset s n = ⟨s, true⟩ := by
  refine ⟨?_, by simp [pause, hs, hn], by simp [reset, hs, hn]⟩
  simp only [stop, hs, not_true_eq_false, if_false, hn]
  split <;> rfl

/-- Resetting everything empties every record and keeps the names. -/
theorem C91_reset_all (s : State K F) (hs : s.active = true) (p : K) :
    (resetAll s).state.records.find p = (s.records.find p).map fun _ => Perf.create := by
  simp only [resetAll, hs, not_true_eq_false, if_false]
  rw [(find_resetLoop p _ s hs).2.2]
  split
  · rfl
  · rename_i h
    cases fd : s.records.find p with
    | none => rfl
    | some q => exact absurd (mem_keys fd) h

/-! ### Examples -/

example : ∀ o ∈ laps (K := ℕ) 3 [((10 : ℚ), 12), (20, 25)], Plain 3 o := by
  intro o ho
  simp only [laps, List.flatMap_cons, List.flatMap_nil, List.append_nil, List.cons_append, List.nil_append, List.mem_cons,
    List.not_mem_nil, or_false] at ho
  rcases ho with rfl | rfl | rfl | rfl <;> simp [Plain]

example : (watched (1 : ℚ) 3 .realTime (laps (K := ℕ) 3 [(10, 12), (20, 25)])).lapses = [2, 5] := by
  rw [C61_laps]; norm_num

example : (watched (1 : ℚ) 3 .realTime (laps (K := ℕ) 3 [(10, 12), (20, 25)])).known = true := by
  simp [watched, laps, watch]

end Verif.StopWatch
