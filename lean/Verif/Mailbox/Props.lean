import Verif.Mailbox.Model
import Verif.Common.Lists
import Mathlib.Tactic.SplitIfs
import Mathlib.Tactic.ByContra

/-!
# Property C29: the mailbox delivers complete messages, in order

The specification `Legal` describes what the callers may observe as a sequence of indivisible operations: a
current message, one buffer per thread and a mark that tells whether something was posted since the last
successful read.
-/

set_option linter.unusedSectionVars false

namespace Verif.Mailbox

variable {n : Nat} {α τ : Type}

/-- A message: object and timestamp. -/
abbrev Msg (n : Nat) (α τ : Type) := (Fin n → α) × τ

/-- The sequences of observations allowed when every operation is indivisible. -/
def Legal (cur : Msg n α τ) (bufs : Nat → Msg n α τ) (fresh : Bool) : List (Ev n α τ) → Prop
  | [] => True
  | .posted m s :: es => Legal (m, s) bufs true es
  | .got t m s :: es => (m, s) = cur ∧ Legal cur (Function.update bufs t cur) false es
  | .stale t m s :: es => (m, s) = bufs t ∧ Legal cur bufs fresh es
  | .asked _ b :: es => b = fresh ∧ Legal cur bufs fresh es
  | .askedBusy _ b :: es => b = false ∧ Legal cur bufs fresh es

/-- What the thread that holds the mutex has done so far. -/
def Local (s : St n α τ) (cur : Msg n α τ) (bufs : Nat → Msg n α τ) (t : Nat) : Pc n α τ → Prop
  | .idle => False
  | .posting m i => i ≤ n ∧ (∀ j : Fin n, j.val < i → s.obj j = m j) ∧
      s.bufObj t = (bufs t).1 ∧ s.bufStamp t = (bufs t).2
  | .stamped m c => s.obj = m ∧ s.stamp = c ∧ s.bufObj t = (bufs t).1 ∧ s.bufStamp t = (bufs t).2
  | .marked m c => s.obj = m ∧ s.stamp = c ∧ s.update = true ∧
      s.bufObj t = (bufs t).1 ∧ s.bufStamp t = (bufs t).2
  | .entered => s.obj = cur.1 ∧ s.stamp = cur.2
  | .stampRead => s.obj = cur.1 ∧ s.stamp = cur.2 ∧ s.bufStamp t = cur.2
  | .getting i => s.obj = cur.1 ∧ s.stamp = cur.2 ∧ s.bufStamp t = cur.2 ∧ s.update = false ∧ i ≤ n ∧
      ∀ j : Fin n, j.val < i → s.bufObj t j = cur.1 j

/-- The relation between the memory and the specification. -/
structure Inv (s : St n α τ) (cur : Msg n α τ) (bufs : Nat → Msg n α τ) (fresh : Bool) : Prop where
  others : ∀ t, s.lock ≠ some t → s.pc t = .idle ∧ s.bufObj t = (bufs t).1 ∧ s.bufStamp t = (bufs t).2
  free : s.lock = none → s.obj = cur.1 ∧ s.stamp = cur.2 ∧ s.update = fresh
  held : ∀ t, s.lock = some t → Local s cur bufs t (s.pc t)

/-- What the specification does on an observation. -/
def specStep (cur : Msg n α τ) (bufs : Nat → Msg n α τ) (fresh : Bool) :
    Option (Ev n α τ) → Msg n α τ × (Nat → Msg n α τ) × Bool
  | some (.posted m s) => ((m, s), bufs, true)
  | some (.got t _ _) => (cur, Function.update bufs t cur, false)
  | _ => (cur, bufs, fresh)

/-- The observation is allowed. -/
def specOk (cur : Msg n α τ) (bufs : Nat → Msg n α τ) (fresh : Bool) : Option (Ev n α τ) → Prop
  | some (.got _ m s) => (m, s) = cur
  | some (.stale t m s) => (m, s) = bufs t
  | some (.asked _ b) => b = fresh
  | some (.askedBusy _ b) => b = false
  | _ => True

theorem go_inv {s s' : St n α τ} {cur : Msg n α τ} {bufs : Nat → Msg n α τ} {fresh : Bool} {t : Nat} {c : τ}
    {e : Option (Ev n α τ)} (hI : Inv s cur bufs fresh) (h : go s t c = some (s', e)) :
    specOk cur bufs fresh e ∧
      Inv s' (specStep cur bufs fresh e).1 (specStep cur bufs fresh e).2.1 (specStep cur bufs fresh e).2.2 := by
  have hlock : s.lock = some t := by
    by_contra hc
    have := (hI.others t hc).1
    simp [go, this] at h
  have hL := hI.held t hlock
  have hO : ∀ t', t' ≠ t → s.pc t' = .idle ∧ s.bufObj t' = (bufs t').1 ∧ s.bufStamp t' = (bufs t').2 := by
    intro t' hne
    apply hI.others
    rw [hlock]
    exact fun h => hne (Option.some.inj h).symm
  unfold go at h
  cases hpc : s.pc t with
  | idle => simp [hpc] at h
  | posting m i =>
    rw [hpc] at hL
    obtain ⟨l1, l2, l3, l4⟩ := hL
    simp only [hpc] at h
    split_ifs at h with hi
    · simp only [Option.some.injEq, Prod.mk.injEq] at h
      obtain ⟨rfl, rfl⟩ := h
      refine ⟨trivial, ⟨?_, ?_, ?_⟩⟩
      · intro t' ht'
        have hne : t' ≠ t := by rintro rfl; exact ht' hlock
        simpa [Function.update_of_ne hne, specStep] using hO t' hne
      · intro hn
        simp [hlock] at hn
      · intro t' ht'
        have : t' = t := by
          simp only [hlock, Option.some.injEq] at ht'
          exact ht'.symm
        subst this
        simp only [Function.update_self, Local, specStep]
        refine ⟨by omega, ?_, l3, l4⟩
        intro j hj
        by_cases hji : j = ⟨i, hi⟩
        · subst hji; simp
        · rw [Function.update_of_ne hji]
          apply l2
          have : j.val ≠ i := fun h => hji (Fin.ext h)
          omega
    · simp only [Option.some.injEq, Prod.mk.injEq] at h
      obtain ⟨rfl, rfl⟩ := h
      refine ⟨trivial, ⟨?_, ?_, ?_⟩⟩
      · intro t' ht'
        have hne : t' ≠ t := by rintro rfl; exact ht' hlock
        simpa [Function.update_of_ne hne, specStep] using hO t' hne
      · intro hn
        simp [hlock] at hn
      · intro t' ht'
        have : t' = t := by
          simp only [hlock, Option.some.injEq] at ht'
          exact ht'.symm
        subst this
        simp only [Function.update_self, Local, specStep]
        refine ⟨?_, trivial, l3, l4⟩
        funext j
        exact l2 j (by omega)
  | stamped m c =>
    rw [hpc] at hL
    obtain ⟨l1, l2, l3, l4⟩ := hL
    simp only [hpc, Option.some.injEq, Prod.mk.injEq] at h
    obtain ⟨rfl, rfl⟩ := h
    refine ⟨trivial, ⟨?_, ?_, ?_⟩⟩
    · intro t' ht'
      have hne : t' ≠ t := by rintro rfl; exact ht' hlock
      simpa [Function.update_of_ne hne, specStep] using hO t' hne
    · intro hn
      simp [hlock] at hn
    · intro t' ht'
      have : t' = t := by
        simp only [hlock, Option.some.injEq] at ht'
        exact ht'.symm
      subst this
      simp only [Function.update_self, Local, specStep]
      exact ⟨l1, l2, trivial, l3, l4⟩
  | marked m c =>
    rw [hpc] at hL
    obtain ⟨l1, l2, l3, l4, l5⟩ := hL
    simp only [hpc, Option.some.injEq, Prod.mk.injEq] at h
    obtain ⟨rfl, rfl⟩ := h
    refine ⟨trivial, ⟨?_, ?_, ?_⟩⟩
    · intro t' _
      by_cases hne : t' = t
      · subst hne
        simpa [specStep] using ⟨l4, l5⟩
      · simpa [Function.update_of_ne hne, specStep] using hO t' hne
    · intro _
      simp only [specStep]
      exact ⟨l1, l2, l3⟩
    · intro t' ht'
      simp at ht'
  | entered =>
    rw [hpc] at hL
    obtain ⟨l1, l2⟩ := hL
    simp only [hpc, Option.some.injEq, Prod.mk.injEq] at h
    obtain ⟨rfl, rfl⟩ := h
    refine ⟨trivial, ⟨?_, ?_, ?_⟩⟩
    · intro t' ht'
      have hne : t' ≠ t := by rintro rfl; exact ht' hlock
      simpa [Function.update_of_ne hne, specStep] using hO t' hne
    · intro hn
      simp [hlock] at hn
    · intro t' ht'
      have : t' = t := by
        simp only [hlock, Option.some.injEq] at ht'
        exact ht'.symm
      subst this
      simp only [Function.update_self, Local, specStep]
      exact ⟨l1, l2, l2⟩
  | stampRead =>
    rw [hpc] at hL
    obtain ⟨l1, l2, l3⟩ := hL
    simp only [hpc, Option.some.injEq, Prod.mk.injEq] at h
    obtain ⟨rfl, rfl⟩ := h
    refine ⟨trivial, ⟨?_, ?_, ?_⟩⟩
    · intro t' ht'
      have hne : t' ≠ t := by rintro rfl; exact ht' hlock
      simpa [Function.update_of_ne hne, specStep] using hO t' hne
    · intro hn
      simp [hlock] at hn
    · intro t' ht'
      have : t' = t := by
        simp only [hlock, Option.some.injEq] at ht'
        exact ht'.symm
      subst this
      simp only [Function.update_self, Local, specStep]
      exact ⟨l1, l2, l3, trivial, by omega, fun j hj => absurd hj (by omega)⟩
  | getting i =>
    rw [hpc] at hL
    obtain ⟨l1, l2, l3, l4, l5, l6⟩ := hL
    simp only [hpc] at h
    split_ifs at h with hi
    · simp only [Option.some.injEq, Prod.mk.injEq] at h
      obtain ⟨rfl, rfl⟩ := h
      refine ⟨trivial, ⟨?_, ?_, ?_⟩⟩
      · intro t' ht'
        have hne : t' ≠ t := by rintro rfl; exact ht' hlock
        simpa [Function.update_of_ne hne, specStep] using hO t' hne
      · intro hn
        simp [hlock] at hn
      · intro t' ht'
        have : t' = t := by
          simp only [hlock, Option.some.injEq] at ht'
          exact ht'.symm
        subst this
        simp only [Function.update_self, Local, specStep]
        refine ⟨l1, l2, l3, l4, by omega, ?_⟩
        intro j hj
        by_cases hji : j = ⟨i, hi⟩
        · subst hji
          simp [l1]
        · rw [Function.update_of_ne hji]
          apply l6
          have : j.val ≠ i := fun h => hji (Fin.ext h)
          omega
    · simp only [Option.some.injEq, Prod.mk.injEq] at h
      obtain ⟨rfl, rfl⟩ := h
      have hobj : s.bufObj t = cur.1 := by
        funext j
        exact l6 j (by omega)
      refine ⟨by simp [specOk, hobj, l3], ⟨?_, ?_, ?_⟩⟩
      · intro t' _
        by_cases hne : t' = t
        · subst hne
          simpa [specStep] using ⟨hobj, l3⟩
        · simpa [Function.update_of_ne hne, specStep] using hO t' hne
      · intro _
        exact ⟨l1, l2, l4⟩
      · intro t' ht'
        simp at ht'

theorem step_inv {s s' : St n α τ} {cur : Msg n α τ} {bufs : Nat → Msg n α τ} {fresh : Bool} {a : Act n α τ}
    {e : Option (Ev n α τ)} (hI : Inv s cur bufs fresh) (h : step s a = some (s', e)) :
    specOk cur bufs fresh e ∧
      Inv s' (specStep cur bufs fresh e).1 (specStep cur bufs fresh e).2.1 (specStep cur bufs fresh e).2.2 := by
  have enter : ∀ t (p : Pc n α τ), s.lock = none →
      Local { s with lock := some t, pc := Function.update s.pc t p } cur bufs t p →
      Inv { s with lock := some t, pc := Function.update s.pc t p } cur bufs fresh := by
    intro t p hl hp
    refine ⟨?_, by simp, ?_⟩
    · intro t' ht'
      have hne : t' ≠ t := by rintro rfl; exact ht' rfl
      simpa [Function.update_of_ne hne] using hI.others t' (by simp [hl])
    · intro t' ht'
      obtain rfl : t = t' := by simpa using ht'
      simpa using hp
  cases a with
  | post t m =>
    simp only [step] at h
    split at h
    · rename_i hp hl
      simp only [Option.some.injEq, Prod.mk.injEq] at h
      obtain ⟨rfl, rfl⟩ := h
      obtain ⟨_, o2, o3⟩ := hI.others t (by simp [hl])
      refine ⟨trivial, enter t _ hl ⟨by omega, fun j hj => absurd hj (by omega), o2, o3⟩⟩
    · simp at h
  | get t =>
    simp only [step] at h
    split at h
    · rename_i hp hl
      simp only [Option.some.injEq, Prod.mk.injEq] at h
      obtain ⟨rfl, rfl⟩ := h
      obtain ⟨f1, f2, _⟩ := hI.free hl
      exact ⟨trivial, enter t _ hl ⟨f1, f2⟩⟩
    · rename_i t' hp hl
      simp only [Option.some.injEq, Prod.mk.injEq] at h
      obtain ⟨rfl, rfl⟩ := h
      have hne : s.lock ≠ some t := by
        intro hc
        have := hI.held t hc
        rw [hp] at this
        exact this
      obtain ⟨_, o2, o3⟩ := hI.others t hne
      exact ⟨by simp [specOk, o2, o3], hI⟩
    · simp at h
  | ask t =>
    simp only [step] at h
    split at h
    · rename_i hp hl
      simp only [Option.some.injEq, Prod.mk.injEq] at h
      obtain ⟨rfl, rfl⟩ := h
      exact ⟨(hI.free hl).2.2, hI⟩
    · simp only [Option.some.injEq, Prod.mk.injEq] at h
      obtain ⟨rfl, rfl⟩ := h
      exact ⟨rfl, hI⟩
    · simp at h
  | go t c => exact go_inv hI h

theorem init_inv (m0 : Fin n → α) (s0 : τ) (b0 : Nat → Fin n → α) (t0 : Nat → τ) :
    Inv (init m0 s0 b0 t0) (m0, s0) (fun t => (b0 t, t0 t)) false :=
  ⟨fun _ _ => ⟨rfl, rfl, rfl⟩, fun _ => ⟨rfl, rfl, rfl⟩, fun _ h => by simp [init] at h⟩

theorem run_legal (as : List (Act n α τ)) (s : St n α τ) (cur : Msg n α τ) (bufs : Nat → Msg n α τ)
    (fresh : Bool) (hI : Inv s cur bufs fresh) : Legal cur bufs fresh (run s as).2 := by
  induction as generalizing s cur bufs fresh with
  | nil => simp [run, Legal]
  | cons a as ih =>
    simp only [run]
    cases hst : step s a with
    | none => exact ih s cur bufs fresh hI
    | some p =>
      obtain ⟨s', e⟩ := p
      obtain ⟨h1, h2⟩ := step_inv hI hst
      cases e with
      | none => exact ih s' cur bufs fresh h2
      | some e =>
        have := ih s' _ _ _ h2
        cases e with
        | posted m c => exact this
        | got t m c => exact ⟨h1, this⟩
        | stale t m c => exact ⟨h1, this⟩
        | asked t b => exact ⟨h1, this⟩
        | askedBusy t b => exact ⟨h1, this⟩

/-- Under every schedule of any number of threads, what the callers observe is what indivisible operations would
give: a read that obtains the mutex returns the message of the last completed post (object and timestamp of the same
post) or the initial content when there is none, a read that does not obtain it leaves the buffer as it was, and the
update mark tells whether a post was completed since the last successful read. -/
theorem C29_operations_are_indivisible (m0 : Fin n → α) (s0 : τ) (b0 : Nat → Fin n → α) (t0 : Nat → τ)
    (sched : List (Act n α τ)) :
    Legal (m0, s0) (fun t => (b0 t, t0 t)) false (run (init m0 s0 b0 t0) sched).2 :=
  run_legal _ _ _ _ _ (init_inv m0 s0 b0 t0)

/-- The messages available over a sequence of observations: the initial one, then the posted ones in order. -/
def messages (first : Msg n α τ) : List (Ev n α τ) → List (Msg n α τ)
  | [] => [first]
  | .posted m s :: es => first :: messages (m, s) es
  | _ :: es => messages first es

/-- The observation is a read by thread `t` (with or without the mutex) that gave the message `x`. -/
def IsRead (t : Nat) (x : Msg n α τ) (e : Ev n α τ) : Prop := e = .got t x.1 x.2 ∨ e = .stale t x.1 x.2

theorem messages_ne_nil (first : Msg n α τ) (es : List (Ev n α τ)) : messages first es ≠ [] := by
  induction es generalizing first with
  | nil => simp [messages]
  | cons e es ih => cases e <;> simp [messages, ih]

theorem first_mem_messages (first : Msg n α τ) (es : List (Ev n α τ)) : first ∈ messages first es := by
  induction es with
  | nil => simp [messages]
  | cons e es ih => cases e <;> simp [messages, ih]

theorem legal_append {cur : Msg n α τ} {bufs : Nat → Msg n α τ} {fresh : Bool} {es fs : List (Ev n α τ)}
    (h : Legal cur bufs fresh (es ++ fs)) : ∃ bufs' fresh',
      Legal ((messages cur es).getLast (messages_ne_nil cur es)) bufs' fresh' fs ∧
      ∀ t, bufs' t = bufs t ∨ bufs' t ∈ messages cur es := by
  induction es generalizing cur bufs fresh with
  | nil => exact ⟨bufs, fresh, by simpa [messages] using h, fun t => .inl rfl⟩
  | cons e es ih =>
    cases e with
    | posted m s =>
      simp only [List.cons_append, Legal] at h
      obtain ⟨b', f', h1, h2⟩ := ih h
      refine ⟨b', f', ?_, ?_⟩
      · simpa [messages, List.getLast_cons (messages_ne_nil (m, s) es)] using h1
      · intro t
        rcases h2 t with h | h
        · exact .inl h
        · exact .inr (by simp [messages, h])
    | got t m s =>
      simp only [List.cons_append, Legal] at h
      obtain ⟨b', f', h1, h2⟩ := ih h.2
      refine ⟨b', f', by simpa [messages] using h1, ?_⟩
      intro t'
      rcases h2 t' with h3 | h3
      · by_cases hne : t' = t
        · subst hne
          right
          rw [h3, Function.update_self]
          simp only [messages]
          exact first_mem_messages _ _
        · left
          rw [h3, Function.update_of_ne hne]
      · exact .inr (by simpa [messages] using h3)
    | stale t m s =>
      simp only [List.cons_append, Legal] at h
      obtain ⟨b', f', h1, h2⟩ := ih h.2
      exact ⟨b', f', by simpa [messages] using h1, fun t => by simpa [messages] using h2 t⟩
    | asked t b =>
      simp only [List.cons_append, Legal] at h
      obtain ⟨b', f', h1, h2⟩ := ih h.2
      exact ⟨b', f', by simpa [messages] using h1, fun t => by simpa [messages] using h2 t⟩
    | askedBusy t b =>
      simp only [List.cons_append, Legal] at h
      obtain ⟨b', f', h1, h2⟩ := ih h.2
      exact ⟨b', f', by simpa [messages] using h1, fun t => by simpa [messages] using h2 t⟩

/-- A read that obtains the mutex returns the last message posted before, as a whole. -/
theorem C29_read_returns_latest (m0 : Fin n → α) (s0 : τ) (b0 : Nat → Fin n → α) (t0 : Nat → τ)
    (sched : List (Act n α τ)) (before after : List (Ev n α τ)) (t : Nat) (m : Fin n → α) (c : τ)
    (h : (run (init m0 s0 b0 t0) sched).2 = before ++ .got t m c :: after) :
    (m, c) = (messages (m0, s0) before).getLast (messages_ne_nil _ _) := by
  have hl := C29_operations_are_indivisible m0 s0 b0 t0 sched
  rw [h] at hl
  obtain ⟨_, _, h1, _⟩ := legal_append hl
  exact h1.1

/-- Reads through one buffer do not go back: after a successful read of `x`, a later read of the same thread, with or
without the mutex, gives `x` or a message posted after the read of `x`. -/
theorem C29_reads_do_not_go_back (m0 : Fin n → α) (s0 : τ) (b0 : Nat → Fin n → α) (t0 : Nat → τ)
    (sched : List (Act n α τ)) (before between after : List (Ev n α τ)) (t : Nat) (x y : Msg n α τ)
    (r : Ev n α τ) (hr : IsRead t y r)
    (h : (run (init m0 s0 b0 t0) sched).2 = before ++ .got t x.1 x.2 :: (between ++ r :: after)) :
    y ∈ messages x between := by
  have hl := C29_operations_are_indivisible m0 s0 b0 t0 sched
  rw [h] at hl
  obtain ⟨b1, f1, h1, _⟩ := legal_append hl
  obtain ⟨h2, h3⟩ := h1
  have hx : x = (messages (m0, s0) before).getLast (messages_ne_nil _ _) := h2
  rw [← hx] at h3
  obtain ⟨b2, f2, h4, h5⟩ := legal_append h3
  rcases hr with rfl | rfl
  · have hy : y = (messages x between).getLast (messages_ne_nil _ _) := h4.1
    rw [hy]
    exact List.getLast_mem _
  · have hy : y = b2 t := h4.1
    rw [hy]
    rcases h5 t with h6 | h6
    · rw [h6, Function.update_self]
      exact first_mem_messages _ _
    · exact h6

/-- A reader never waits: whatever the other threads do, a thread that is outside can start (and, without the mutex,
finish) a read at once. -/
theorem C29_reader_never_waits (s : St n α τ) (t : Nat) (h : s.pc t = .idle) :
    ∃ r, step s (.get t) = some r := by
  cases hl : s.lock <;> simp [step, h, hl]

theorem run_getting (s : St n α τ) (t : Nat) (c : τ) (k : Nat) (hk : k ≤ n)
    (hp : s.pc t = .getting (n - k)) (hb : ∀ j : Fin n, j.val < n - k → s.bufObj t j = s.obj j) :
    (run s (List.replicate (k + 1) (.go t c))).2 = [.got t s.obj (s.bufStamp t)] := by
  induction k generalizing s with
  | zero =>
    have : s.bufObj t = s.obj := funext fun j => hb j (by omega)
    simp [run, step, go, hp, this]
  | succ k ih =>
    rw [List.replicate_succ]
    have hi : n - (k + 1) < n := by omega
    simp only [run, step, go, hp, hi, dite_true]
    rw [ih _ (by omega)]
    · simp only [Function.update_self]
      congr 2
      omega
    · intro j hj
      simp only [Function.update_self]
      by_cases hji : j = ⟨n - (k + 1), hi⟩
      · subst hji; simp
      · rw [Function.update_of_ne hji]
        apply hb
        have : j.val ≠ n - (k + 1) := fun h => hji (Fin.ext h)
        omega

/-- Without contention (the mutex is free and only the reader runs) a read completes in `n + 3` accesses and returns
the message in the mailbox. -/
theorem C29_uncontended_read (s : St n α τ) (t : Nat) (c : τ) (h : s.pc t = .idle) (hl : s.lock = none) :
    (run s (.get t :: List.replicate (n + 3) (.go t c))).2 = [.got t s.obj s.stamp] := by
  have : n + 3 = (n + 1) + 1 + 1 := by omega
  rw [this, List.replicate_succ, List.replicate_succ]
  simp only [run, step, h, hl, go, Function.update_self]
  rw [run_getting _ t c n (Nat.le_refl n)]
  · simp
  · simp
  · intro j hj
    omega

/-- A schedule with posts of 1, 2 and 3 by thread 0 and reads through the buffers 1 and 2: the last read comes while
thread 0 is inside its third post. -/
def sampleSchedule : List (Act 1 Nat Nat) :=
  [.post 0 fun _ => 1, .go 0 10, .go 0 11, .go 0 12, .go 0 13,
   .get 2, .go 2 0, .go 2 0, .go 2 0, .go 2 0,
   .post 0 fun _ => 2, .go 0 20, .go 0 21, .get 1, .go 0 22, .go 0 23,
   .ask 1, .get 1, .go 1 0, .post 0 fun _ => 5, .go 1 0, .go 1 0, .go 1 0, .ask 1,
   .post 0 fun _ => 3, .go 0 30, .get 2]

/-- Observations as numbers, for the examples. -/
def shown : Ev 1 Nat Nat → String × Nat × Nat
  | .posted m s => ("posted", m 0, s)
  | .got _ m s => ("got", m 0, s)
  | .stale _ m s => ("stale", m 0, s)
  | .asked _ b => ("asked", b.toNat, 0)
  | .askedBusy _ b => ("busy", b.toNat, 0)

/-- Reads through two buffers used in turn can go back: the reads give 1, then 2 through the other buffer, then 1
again, because a read without the mutex keeps what its own buffer had. (A caller that alternates buffers, as a
double-buffered signal does, sees an older message after a newer one.) -/
theorem C29_alternating_buffers_counterexample :
    ((run (init (fun _ => 0) 0 (fun _ _ => 0) (fun _ => 0)) sampleSchedule).2.map shown) =
      [("posted", 1, 11), ("got", 1, 11), ("stale", 0, 0), ("posted", 2, 21), ("asked", 1, 0), ("got", 2, 21),
       ("asked", 0, 0), ("stale", 1, 11)] := by decide

end Verif.Mailbox
