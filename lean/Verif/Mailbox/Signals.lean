import Verif.Mailbox.Model

/-!
# C146: the outputs of a mailbox

`Mailbox` has three outputs (include/sot/core/mailbox.hxx:28-36): `sout`, whose function is `get`, and `object` and `timestamp`, that read
`sout` and depend on it. The signals are those of dynamic-graph, which is not in the repository. What is assumed of it:

* `sout` is declared `BOOL_DEPENDENT` (include/sot/core/mailbox.hxx:35): it calls its function when its mark is set (`setReady`, and at the
  first time), and clears it; otherwise it answers its last value;
* it gives its function, in turn, one of two buffers: the one that does not hold its last value;
* `object` and `timestamp` call their functions at the first time, and when the mark of `sout` is set or the date of the last computation of
  `sout` is later than their own one; otherwise they answer their last value;
* whether an output that is asked for again at a date that it has already answered computes again is a parameter, `keep`: both cases are proved.

A `post` starts when the mutex is free and ends later; it has written everything and set the mark (include/sot/core/mailbox.hxx:79-84) but
holds the mutex in between, and `get` leaves its buffer as it is. Simplification: the reading of an output is not interrupted; the memory
accesses inside `post` and `get` are those of `Verif.Mailbox.step`.
-/

namespace Verif.Mailbox

variable {α τ : Type}

/-- The members of the mailbox (include/sot/core/mailbox.hh:64-67), the mark, the buffers and the date of `sout`, the values and the dates of
`object` and `timestamp`, and whether they have not been computed yet. -/
structure Box (α τ : Type) where
  main : α × τ
  busy : Bool
  ready : Bool
  cur : α × τ
  other : α × τ
  date : Int
  obj : α
  objDate : Int
  objNew : Bool
  stamp : τ
  stampDate : Int
  stampNew : Bool

/-- A new mailbox (include/sot/core/mailbox.hxx:22-36): any contents. -/
def Box.init (m a b : α × τ) : Box α τ := ⟨m, false, true, a, b, 0, a.1, 0, true, a.2, 0, true⟩

/-- What happens: a `post` starts or ends, an output is asked for at a date. -/
inductive BOp (α τ : Type) where
  | begin (m : α × τ)
  | finish
  | askSout (t : Int)
  | askObj (t : Int)
  | askStamp (t : Int)

/-- An answer. -/
inductive BAns (α τ : Type) where
  | sout (m : α × τ)
  | obj (x : α)
  | stamp (x : τ)

/-- `sout` calls `get` (include/sot/core/mailbox.hxx:60-74) with the other buffer, which becomes its value. -/
def Box.compute (s : Box α τ) (t : Int) : Box α τ :=
  { s with cur := if s.busy then s.other else s.main, other := s.cur, ready := false, date := t }

/-- `sout` is asked for. -/
def Box.readSout (s : Box α τ) (t : Int) : Box α τ := if s.ready then s.compute t else s

/-- Whether an output that depends on `sout` computes again at the date `t`; `d` is the date of its last computation. -/
def Box.stale (keep : Bool) (s : Box α τ) (new : Bool) (d t : Int) : Bool :=
  new || (!(keep && decide (t ≤ d)) && (s.ready || decide (d < s.date)))

/-- `object` is asked for: `getObject` (include/sot/core/mailbox.hxx:89-94). -/
def Box.readObj (keep : Bool) (s : Box α τ) (t : Int) : Box α τ :=
  if s.stale keep s.objNew s.objDate t then { s.readSout t with obj := (s.readSout t).cur.1, objDate := t, objNew := false } else s

/-- `timestamp` is asked for: `getTimestamp` (include/sot/core/mailbox.hxx:96-102). -/
def Box.readStamp (keep : Bool) (s : Box α τ) (t : Int) : Box α τ :=
  if s.stale keep s.stampNew s.stampDate t then { s.readSout t with stamp := (s.readSout t).cur.2, stampDate := t, stampNew := false } else s

/-- One step and the answers. A `post` that meets another one waits: the step does nothing
(include/sot/core/mailbox.hxx:77-87). -/
def Box.step (keep : Bool) (s : Box α τ) : BOp α τ → Box α τ × List (BAns α τ)
  | .begin m => (if s.busy then s else { s with main := m, busy := true, ready := true }, [])
  | .finish => ({ s with busy := false }, [])
  | .askSout t => (s.readSout t, [.sout (s.readSout t).cur])
  | .askObj t => (s.readObj keep t, [.obj (s.readObj keep t).obj])
  | .askStamp t => (s.readStamp keep t, [.stamp (s.readStamp keep t).stamp])

/-- The state after a history. -/
def Box.after (keep : Bool) : Box α τ → List (BOp α τ) → Box α τ
  | s, [] => s
  | s, o :: os => Box.after keep (s.step keep o).1 os

/-- The answers along a history. -/
def Box.answers (keep : Bool) : Box α τ → List (BOp α τ) → List (BAns α τ)
  | _, [] => []
  | s, o :: os => (s.step keep o).2 ++ Box.answers keep (s.step keep o).1 os

/-! ### Readings -/

/-- A reading: which output, at which date. -/
inductive Ask where
  | sout (t : Int)
  | obj (t : Int)
  | stamp (t : Int)

/-- The date of a reading. -/
def Ask.time : Ask → Int
  | .sout t | .obj t | .stamp t => t

/-- The reading as a step. -/
def Ask.op : Ask → BOp α τ
  | .sout t => .askSout t
  | .obj t => .askObj t
  | .stamp t => .askStamp t

/-- The answer that shows the message `m`. -/
def Ask.shows (m : α × τ) : Ask → BAns α τ
  | .sout _ => .sout m
  | .obj _ => .obj m.1
  | .stamp _ => .stamp m.2

/-- A round: perhaps a message, then readings. -/
structure Round (α τ : Type) where
  post : Option (α × τ)
  asks : List Ask

/-- The steps of a round. -/
def Round.ops (r : Round α τ) : List (BOp α τ) :=
  (match r.post with | none => [] | some m => [.begin m, .finish]) ++ r.asks.map Ask.op

/-- What the readings should show: the last message posted. -/
def lastShown : α × τ → List (Round α τ) → List (BAns α τ)
  | _, [] => []
  | m, r :: rs => r.asks.map (Ask.shows (r.post.getD m)) ++ lastShown (r.post.getD m) rs

theorem answers_append (keep : Bool) (s : Box α τ) (a b : List (BOp α τ)) :
    s.answers keep (a ++ b) = s.answers keep a ++ (s.after keep a).answers keep b := by
  induction a generalizing s with
  | nil => rfl
  | cons o os ih => simp only [List.cons_append, Box.answers, Box.after, ih, List.append_assoc]

theorem after_append (keep : Bool) (s : Box α τ) (a b : List (BOp α τ)) : s.after keep (a ++ b) = (s.after keep a).after keep b := by
  induction a generalizing s with
  | nil => rfl
  | cons o os ih => simp only [List.cons_append, Box.after, ih]

/-- Between the posts, after the date `T`: every output shows the message, or will compute it again. -/
structure Fresh (T : Int) (s : Box α τ) : Prop where
  free : s.busy = false
  sout : s.ready = false → s.cur = s.main
  obj : s.objNew = true ∨ s.obj = s.main.1 ∨ (s.objDate ≤ T ∧ (s.ready = true ∨ s.objDate < s.date))
  stamp : s.stampNew = true ∨ s.stamp = s.main.2 ∨ (s.stampDate ≤ T ∧ (s.ready = true ∨ s.stampDate < s.date))

theorem Fresh.readSout {T t : Int} {s : Box α τ} (h : Fresh T s) (ht : T < t) :
    Fresh T (s.readSout t) ∧ (s.readSout t).cur = s.main ∧ (s.readSout t).main = s.main ∧ (s.readSout t).ready = false := by
  unfold Box.readSout
  by_cases hr : s.ready = true
  · rw [if_pos hr]
    have hc : (s.compute t).cur = s.main := by simp [Box.compute, h.free]
    refine ⟨⟨h.free, fun _ => hc, ?_, ?_⟩, hc, rfl, rfl⟩
    · rcases h.obj with h1 | h1 | ⟨h1, -⟩
      · exact .inl h1
      · exact .inr (.inl h1)
      · exact .inr (.inr ⟨h1, .inr (Int.lt_of_le_of_lt h1 ht)⟩)
    · rcases h.stamp with h1 | h1 | ⟨h1, -⟩
      · exact .inl h1
      · exact .inr (.inl h1)
      · exact .inr (.inr ⟨h1, .inr (Int.lt_of_le_of_lt h1 ht)⟩)
  · have hr' : s.ready = false := by simpa using hr
    rw [if_neg hr]
    exact ⟨h, h.sout hr', rfl, hr'⟩

theorem fresh_stale {T t d : Int} {s : Box α τ} {keep new : Bool} (ht : T < t) (h : new = true ∨ (d ≤ T ∧ (s.ready = true ∨ d < s.date))) :
    s.stale keep new d t = true := by
  unfold Box.stale
  rcases h with h | ⟨h1, h2⟩
  · simp [h]
  · have h3 : ¬ t ≤ d := by omega
    rcases h2 with h2 | h2 <;> simp [h2, h3]

theorem Fresh.ask {T : Int} {s : Box α τ} (keep : Bool) (h : Fresh T s) (a : Ask) (ht : T < a.time) :
    Fresh T (s.step keep a.op).1 ∧ (s.step keep a.op).2 = [a.shows s.main] ∧ (s.step keep a.op).1.main = s.main := by
  cases a with
  | sout t =>
    obtain ⟨h1, h2, h3, -⟩ := h.readSout ht
    exact ⟨h1, by simp only [Ask.op, Box.step, Ask.shows]; rw [← h2]; rfl, h3⟩
  | obj t =>
    have ht' : T < t := ht
    obtain ⟨h1, h2, h3, h4⟩ := h.readSout ht
    simp only [Ask.op, Box.step, Box.readObj, Ask.shows, Ask.time] at *
    by_cases hs : s.stale keep s.objNew s.objDate t = true
    · rw [if_pos hs]
      refine ⟨⟨h1.free, h1.sout, .inr (.inl ?_), h1.stamp⟩, ?_, h3⟩
      · show (s.readSout t).cur.1 = (s.readSout t).main.1
        rw [h2, h3]
      · simp [h2]
    · rw [if_neg hs]
      have hobj : s.obj = s.main.1 := by
        rcases h.obj with k | k | k
        · exact absurd (fresh_stale ht' (.inl k)) hs
        · exact k
        · exact absurd (fresh_stale ht' (.inr k)) hs
      exact ⟨h, by simp [hobj], rfl⟩
  | stamp t =>
    have ht' : T < t := ht
    obtain ⟨h1, h2, h3, h4⟩ := h.readSout ht
    simp only [Ask.op, Box.step, Box.readStamp, Ask.shows, Ask.time] at *
    by_cases hs : s.stale keep s.stampNew s.stampDate t = true
    · rw [if_pos hs]
      refine ⟨⟨h1.free, h1.sout, h1.obj, .inr (.inl ?_)⟩, ?_, h3⟩
      · show (s.readSout t).cur.2 = (s.readSout t).main.2
        rw [h2, h3]
      · simp [h2]
    · rw [if_neg hs]
      have hobj : s.stamp = s.main.2 := by
        rcases h.stamp with k | k | k
        · exact absurd (fresh_stale ht' (.inl k)) hs
        · exact k
        · exact absurd (fresh_stale ht' (.inr k)) hs
      exact ⟨h, by simp [hobj], rfl⟩

/-- The readings after a date. -/
theorem Fresh.asks {T : Int} {s : Box α τ} (keep : Bool) (h : Fresh T s) (as : List Ask) (ht : ∀ a ∈ as, T < a.time) :
    Fresh T (s.after keep (as.map Ask.op)) ∧ s.answers keep (as.map Ask.op) = as.map (Ask.shows s.main) ∧
      (s.after keep (as.map Ask.op)).main = s.main := by
  induction as generalizing s with
  | nil => exact ⟨h, rfl, rfl⟩
  | cons a as ih =>
    obtain ⟨h1, h2, h3⟩ := h.ask keep a (ht a (by simp))
    obtain ⟨k1, k2, k3⟩ := ih h1 fun b hb => ht b (by simp [hb])
    simp only [List.map_cons, Box.answers, Box.after]
    exact ⟨k1, by rw [k2, h2, h3]; rfl, by rw [k3, h3]⟩

/-- The dates of the outputs are not after `T`. -/
structure Before (T : Int) (s : Box α τ) : Prop where
  obj : s.objNew = true ∨ s.objDate ≤ T
  stamp : s.stampNew = true ∨ s.stampDate ≤ T

theorem Before.step {T : Int} {s : Box α τ} (keep : Bool) (h : Before T s) (o : BOp α τ)
    (ho : ∀ t, (o = .askSout t ∨ o = .askObj t ∨ o = .askStamp t) → t ≤ T) : Before T (s.step keep o).1 := by
  have hr : ∀ t, (s.readSout t).objNew = s.objNew ∧ (s.readSout t).objDate = s.objDate ∧ (s.readSout t).stampNew = s.stampNew ∧
      (s.readSout t).stampDate = s.stampDate := by
    intro t
    unfold Box.readSout
    split <;> exact ⟨rfl, rfl, rfl, rfl⟩
  cases o with
  | «begin» m =>
    simp only [Box.step]
    split
    · exact h
    · exact ⟨h.obj, h.stamp⟩
  | finish => exact ⟨h.obj, h.stamp⟩
  | askSout t =>
    obtain ⟨r1, r2, r3, r4⟩ := hr t
    refine ⟨?_, ?_⟩
    · show (s.readSout t).objNew = true ∨ (s.readSout t).objDate ≤ T
      rw [r1, r2]; exact h.obj
    · show (s.readSout t).stampNew = true ∨ (s.readSout t).stampDate ≤ T
      rw [r3, r4]; exact h.stamp
  | askObj t =>
    obtain ⟨r1, r2, r3, r4⟩ := hr t
    simp only [Box.step, Box.readObj]
    split
    · refine ⟨.inr (ho t (by simp)), ?_⟩
      show (s.readSout t).stampNew = true ∨ (s.readSout t).stampDate ≤ T
      rw [r3, r4]; exact h.stamp
    · exact h
  | askStamp t =>
    obtain ⟨r1, r2, r3, r4⟩ := hr t
    simp only [Box.step, Box.readStamp]
    split
    · refine ⟨?_, .inr (ho t (by simp))⟩
      show (s.readSout t).objNew = true ∨ (s.readSout t).objDate ≤ T
      rw [r1, r2]; exact h.obj
    · exact h

/-- The date of a step that reads an output. -/
def BOp.time? : BOp α τ → Option Int
  | .askSout t | .askObj t | .askStamp t => some t
  | _ => none

theorem Before.after {T : Int} {s : Box α τ} (keep : Bool) (h : Before T s) (ops : List (BOp α τ))
    (ho : ∀ o ∈ ops, ∀ t, BOp.time? o = some t → t ≤ T) : Before T (s.after keep ops) := by
  induction ops generalizing s with
  | nil => exact h
  | cons o os ih =>
    refine ih (h.step keep o fun t ht => ho o (by simp) t ?_) fun b hb => ho b (by simp [hb])
    rcases ht with rfl | rfl | rfl <;> rfl

theorem Before.mono {T T' : Int} {s : Box α τ} (h : Before T s) (hT : T ≤ T') : Before T' s :=
  ⟨h.obj.imp_right fun k => Int.le_trans k hT, h.stamp.imp_right fun k => Int.le_trans k hT⟩

/-- After a complete post, everything is fresh. -/
theorem fresh_post {T : Int} {s : Box α τ} (keep : Bool) (h : Before T s) (hb : s.busy = false) (m : α × τ) :
    Fresh T (s.after keep [.begin m, .finish]) ∧ (s.after keep [.begin m, .finish]).main = m := by
  have he : s.after keep [.begin m, .finish] = { s with main := m, busy := false, ready := true } := by
    simp [Box.after, Box.step, hb]
  rw [he]
  refine ⟨⟨rfl, fun h => by simp at h, ?_, ?_⟩, rfl⟩
  · rcases h.obj with k | k
    · exact .inl k
    · exact .inr (.inr ⟨k, .inl rfl⟩)
  · rcases h.stamp with k | k
    · exact .inl k
    · exact .inr (.inr ⟨k, .inl rfl⟩)

/-- **C146, recovery.** Whatever happened before, even readings during a `post`: after a `post` that meets no other one and no reading, the
readings at dates later than all those before show its message, on the three outputs. -/
theorem C146_recovers (keep : Bool) (m0 a0 b0 : α × τ) (ops : List (BOp α τ)) (m : α × τ) (as : List Ask) (T : Int)
    (hT : ∀ o ∈ ops, ∀ t, BOp.time? o = some t → t ≤ T) (has : ∀ a ∈ as, T < a.time) :
    (Box.init m0 a0 b0).answers keep (ops ++ [.finish, .begin m, .finish] ++ as.map Ask.op) =
      (Box.init m0 a0 b0).answers keep ops ++ as.map (Ask.shows m) := by
  rw [answers_append, answers_append, after_append]
  have h1 : Before T ((Box.init m0 a0 b0).after keep ops) := Before.after keep ⟨.inl rfl, .inl rfl⟩ ops hT
  have h2 : Before T ((((Box.init m0 a0 b0).after keep ops).step keep .finish).1) := h1.step keep _ (by simp)
  obtain ⟨f1, f2⟩ := fresh_post keep h2 rfl m
  obtain ⟨-, g2, -⟩ := f1.asks keep as has
  rw [f2] at g2
  show _ ++ _ ++ (Box.after keep _ [.begin m, .finish]).answers keep _ = _
  rw [g2]
  simp [Box.answers, Box.step]

/-- **C146, between the dates.** When no output is read during a `post` and the dates of the readings that follow a `post` are later than
those before it, every reading of every output shows the last message posted. -/
theorem C146_between_dates (keep : Bool) (m0 a0 b0 : α × τ) (rs : List (Round α τ))
    (h : rs.Pairwise fun r r' => ∀ a ∈ r.asks, ∀ a' ∈ r'.asks, a.time < a'.time) :
    (Box.init m0 a0 b0).answers keep (rs.flatMap Round.ops) = lastShown m0 rs := by
  have key : ∀ (rs : List (Round α τ)) (s : Box α τ) (T : Int), Fresh T s → Before T s →
      rs.Pairwise (fun r r' => ∀ a ∈ r.asks, ∀ a' ∈ r'.asks, a.time < a'.time) → (∀ r ∈ rs, ∀ a ∈ r.asks, T < a.time) →
      s.answers keep (rs.flatMap Round.ops) = lastShown s.main rs := by
    intro rs
    induction rs with
    | nil => intros; rfl
    | cons r rs ih =>
      intro s T hF hB hp hT
      rw [List.pairwise_cons] at hp
      -- the state after the post
      obtain ⟨s1, e1, e2, e3, e4⟩ : ∃ s1, s1 = s.after keep (match r.post with | none => [] | some m => [.begin m, .finish]) ∧ Fresh T s1 ∧
          Before T s1 ∧ s1.main = r.post.getD s.main := by
        refine ⟨_, rfl, ?_⟩
        cases r.post with
        | none => exact ⟨hF, hB, rfl⟩
        | some m =>
          obtain ⟨f1, f2⟩ := fresh_post keep hB hF.free m
          exact ⟨f1, (hB.after keep [.begin m, .finish] (by simp [BOp.time?])), f2⟩
      have hno : s.answers keep (match r.post with | none => [] | some m => [.begin m, .finish]) = [] := by
        cases r.post with
        | none => rfl
        | some m => simp [Box.answers, Box.step]
      obtain ⟨g1, g2, g3⟩ := e2.asks keep r.asks (hT r (by simp))
      simp only [List.flatMap_cons, Round.ops, lastShown, List.append_assoc]
      rw [answers_append, hno, ← e1, answers_append, g2, e4, List.nil_append]
      congr 1
      rw [← e4, ← g3]
      by_cases hall : ∃ r' ∈ rs, r'.asks ≠ []
      · -- the last date of this round is before all those that follow
        obtain ⟨T', t1, t2, t3⟩ : ∃ T', T ≤ T' ∧ (∀ a ∈ r.asks, a.time ≤ T') ∧ ∀ r' ∈ rs, ∀ a ∈ r'.asks, T' < a.time := by
          have hmax : ∀ l : List Ask, ∃ T', T ≤ T' ∧ (∀ a ∈ l, a.time ≤ T') ∧ (T' = T ∨ ∃ a ∈ l, T' = a.time) := by
            intro l
            induction l with
            | nil => exact ⟨T, Int.le_refl T, by simp, .inl rfl⟩
            | cons a l ihl =>
              obtain ⟨T', k1, k2, k3⟩ := ihl
              by_cases hle : a.time ≤ T'
              · refine ⟨T', k1, ?_, ?_⟩
                · intro b hb
                  rcases List.mem_cons.mp hb with rfl | hb
                  · exact hle
                  · exact k2 b hb
                · rcases k3 with k3 | ⟨b, k3, k4⟩
                  · exact .inl k3
                  · exact .inr ⟨b, by simp [k3], k4⟩
              · refine ⟨a.time, by omega, ?_, .inr ⟨a, by simp, rfl⟩⟩
                intro b hb
                rcases List.mem_cons.mp hb with rfl | hb
                · exact Int.le_refl _
                · have := k2 b hb; omega
          obtain ⟨T', k1, k2, k3⟩ := hmax r.asks
          refine ⟨T', k1, k2, fun r' hr' a ha => ?_⟩
          rcases k3 with rfl | ⟨b, hb, rfl⟩
          · exact hT r' (by simp [hr']) a ha
          · exact hp.1 r' hr' b hb a ha
        refine ih _ T' ?_ ?_ hp.2 t3
        · refine ⟨g1.free, g1.sout, ?_, ?_⟩
          · exact g1.obj.imp_right (Or.imp_right fun k => ⟨Int.le_trans k.1 t1, k.2⟩)
          · exact g1.stamp.imp_right (Or.imp_right fun k => ⟨Int.le_trans k.1 t1, k.2⟩)
        · refine (e3.mono t1).after keep _ ?_
          intro o ho t ht
          obtain ⟨a, ha, rfl⟩ := List.mem_map.mp ho
          have : a.time = t := by
            cases a <;> simpa [Ask.op, BOp.time?, Ask.time] using ht
          rw [← this]
          exact t2 a ha
      · -- nothing is read any more
        have hnone : ∀ (rs : List (Round α τ)) (s : Box α τ) (m : α × τ), (∀ r' ∈ rs, r'.asks = []) →
            s.answers keep (rs.flatMap Round.ops) = [] ∧ lastShown m rs = [] := by
          intro rs
          induction rs with
          | nil => intro s m _; exact ⟨rfl, rfl⟩
          | cons r rs ih2 =>
            intro s m hr
            have h0 : r.asks = [] := hr r (by simp)
            simp only [List.flatMap_cons, Round.ops, lastShown, h0, List.map_nil, List.append_nil, List.nil_append]
            rw [answers_append, (ih2 _ (r.post.getD m) fun r' h' => hr r' (by simp [h'])).1,
              (ih2 s (r.post.getD m) fun r' h' => hr r' (by simp [h'])).2]
            refine ⟨?_, rfl⟩
            cases r.post with
            | none => rfl
            | some m => simp [Box.answers, Box.step]
        have hemp : ∀ r' ∈ rs, r'.asks = [] := fun r' hr' => Classical.byContradiction fun hne => hall ⟨r', hr', hne⟩
        rw [(hnone rs _ m0 hemp).1, (hnone rs (Box.init m0 a0 b0) _ hemp).2]
  -- a date before all of them
  obtain ⟨T, hT⟩ : ∃ T : Int, ∀ r ∈ rs, ∀ a ∈ r.asks, T < a.time := by
    have hl : ∀ l : List Ask, ∃ T : Int, ∀ a ∈ l, T < a.time := by
      intro l
      induction l with
      | nil => exact ⟨0, by simp⟩
      | cons a l ihl =>
        obtain ⟨T, k⟩ := ihl
        refine ⟨min T (a.time - 1), ?_⟩
        intro b hb
        rcases List.mem_cons.mp hb with rfl | hb
        · omega
        · have := k b hb; omega
    obtain ⟨T, k⟩ := hl (rs.flatMap Round.asks)
    exact ⟨T, fun r hr a ha => k a (List.mem_flatMap.mpr ⟨r, hr, ha⟩)⟩
  exact key rs (Box.init m0 a0 b0) T ⟨rfl, fun h => by simp [Box.init] at h, .inl rfl, .inl rfl⟩ ⟨.inl rfl, .inl rfl⟩ h hT

/-! ### The first output, whatever the dates -/

/-- The answers of `sout`. -/
def BAns.sout? : BAns α τ → Option (α × τ)
  | .sout m => some m
  | _ => none

/-- Whether a reading is one of `sout`. -/
def Ask.isSout : Ask → Bool
  | .sout _ => true
  | _ => false

/-- The last message posted, once for each reading of `sout`. -/
def lastSout : α × τ → List (Round α τ) → List (α × τ)
  | _, [] => []
  | m, r :: rs => (r.asks.filter Ask.isSout).map (fun _ => r.post.getD m) ++ lastSout (r.post.getD m) rs

/-- What the first output needs. -/
def Ready (s : Box α τ) : Prop := s.busy = false ∧ (s.ready = false → s.cur = s.main)

theorem Ready.readSout {s : Box α τ} (h : Ready s) (t : Int) : Ready (s.readSout t) ∧ (s.readSout t).cur = s.main ∧ (s.readSout t).main = s.main := by
  unfold Box.readSout
  split
  · have hc : (s.compute t).cur = s.main := by simp [Box.compute, h.1]
    exact ⟨⟨h.1, fun _ => hc⟩, hc, rfl⟩
  · rename_i hr
    exact ⟨h, h.2 (by simpa using hr), rfl⟩

theorem Ready.asks {s : Box α τ} (keep : Bool) (h : Ready s) (as : List Ask) :
    Ready (s.after keep (as.map Ask.op)) ∧ (s.after keep (as.map Ask.op)).main = s.main ∧
      (s.answers keep (as.map Ask.op)).filterMap BAns.sout? = (as.filter Ask.isSout).map fun _ => s.main := by
  induction as generalizing s with
  | nil => exact ⟨h, rfl, rfl⟩
  | cons a as ih =>
    obtain ⟨h1, h2, h3⟩ : Ready (s.step keep a.op).1 ∧ (s.step keep a.op).1.main = s.main ∧
        (s.step keep a.op).2.filterMap BAns.sout? = ([a].filter Ask.isSout).map fun _ => s.main := by
      cases a with
      | sout t =>
        obtain ⟨k1, k2, k3⟩ := h.readSout t
        exact ⟨k1, k3, by simp [Ask.op, Box.step, BAns.sout?, List.filter, Ask.isSout, k2]⟩
      | obj t =>
        obtain ⟨k1, k2, k3⟩ := h.readSout t
        refine ⟨?_, ?_, by simp [Ask.op, Box.step, BAns.sout?, Ask.isSout]⟩
        · simp only [Ask.op, Box.step, Box.readObj]
          split
          · exact k1
          · exact h
        · simp only [Ask.op, Box.step, Box.readObj]
          split
          · exact k3
          · rfl
      | stamp t =>
        obtain ⟨k1, k2, k3⟩ := h.readSout t
        refine ⟨?_, ?_, by simp [Ask.op, Box.step, BAns.sout?, Ask.isSout]⟩
        · simp only [Ask.op, Box.step, Box.readStamp]
          split
          · exact k1
          · exact h
        · simp only [Ask.op, Box.step, Box.readStamp]
          split
          · exact k3
          · rfl
    obtain ⟨g1, g2, g3⟩ := ih h1
    refine ⟨g1, g2.trans h2, ?_⟩
    simp only [List.map_cons, Box.answers, List.filterMap_append, h3, g3, h2]
    rw [← List.map_append, ← List.filter_append]
    rfl

/-- **C146, first output.** When no output is read during a `post`, every reading of `sout` shows the last message posted, whatever the
dates. -/
theorem C146_sout (keep : Bool) (m0 a0 b0 : α × τ) (rs : List (Round α τ)) :
    ((Box.init m0 a0 b0).answers keep (rs.flatMap Round.ops)).filterMap BAns.sout? = lastSout m0 rs := by
  have key : ∀ (rs : List (Round α τ)) (s : Box α τ), Ready s →
      (s.answers keep (rs.flatMap Round.ops)).filterMap BAns.sout? = lastSout s.main rs := by
    intro rs
    induction rs with
    | nil => intros; rfl
    | cons r rs ih =>
      intro s hs
      obtain ⟨s1, e1, e2, e3⟩ : ∃ s1, s1 = s.after keep (match r.post with | none => [] | some m => [.begin m, .finish]) ∧ Ready s1 ∧
          s1.main = r.post.getD s.main := by
        refine ⟨_, rfl, ?_⟩
        cases r.post with
        | none => exact ⟨hs, rfl⟩
        | some m => simp [Box.after, Box.step, hs.1, Ready]
      have hno : s.answers keep (match r.post with | none => [] | some m => [.begin m, .finish]) = [] := by
        cases r.post with
        | none => rfl
        | some m => simp [Box.answers, Box.step]
      obtain ⟨g1, g2, g3⟩ := e2.asks keep r.asks
      simp only [List.flatMap_cons, Round.ops, lastSout, List.append_assoc]
      rw [answers_append, hno, ← e1, answers_append, List.nil_append, List.filterMap_append, g3, ih _ g1, g2, e3]
  exact key rs (Box.init m0 a0 b0) ⟨rfl, fun h => by simp [Box.init] at h⟩

/-! ### Any history -/

/-- The answer shows a message of `S`. -/
def BAns.Of (S : α × τ → Prop) : BAns α τ → Prop
  | .sout m => S m
  | .obj x => ∃ m, S m ∧ m.1 = x
  | .stamp x => ∃ m, S m ∧ m.2 = x

/-- The contents of a mailbox are messages of `S`. -/
structure Holds (S : α × τ → Prop) (s : Box α τ) : Prop where
  main : S s.main
  cur : S s.cur
  other : S s.other
  obj : ∃ m, S m ∧ m.1 = s.obj
  stamp : ∃ m, S m ∧ m.2 = s.stamp

theorem Holds.readSout {S : α × τ → Prop} {s : Box α τ} (h : Holds S s) (t : Int) : Holds S (s.readSout t) := by
  unfold Box.readSout
  split
  · refine ⟨h.main, ?_, h.cur, h.obj, h.stamp⟩
    simp only [Box.compute]
    split
    · exact h.other
    · exact h.main
  · exact h

theorem Holds.readObj {S : α × τ → Prop} {s : Box α τ} (keep : Bool) (h : Holds S s) (t : Int) : Holds S (s.readObj keep t) := by
  unfold Box.readObj
  split
  · exact ⟨(h.readSout t).main, (h.readSout t).cur, (h.readSout t).other, ⟨_, (h.readSout t).cur, rfl⟩, (h.readSout t).stamp⟩
  · exact h

theorem Holds.readStamp {S : α × τ → Prop} {s : Box α τ} (keep : Bool) (h : Holds S s) (t : Int) : Holds S (s.readStamp keep t) := by
  unfold Box.readStamp
  split
  · exact ⟨(h.readSout t).main, (h.readSout t).cur, (h.readSout t).other, (h.readSout t).obj, ⟨_, (h.readSout t).cur, rfl⟩⟩
  · exact h

/-- **C146, origin.** In any history, even with readings during a `post`, every answer is the contents at the start or a message posted
before it. -/
theorem C146_origin (keep : Bool) (m0 a0 b0 : α × τ) (pre : List (BOp α τ)) (o : BOp α τ) :
    ∀ x ∈ (((Box.init m0 a0 b0).after keep pre).step keep o).2, x.Of fun m => m = m0 ∨ m = a0 ∨ m = b0 ∨ BOp.begin m ∈ pre := by
  have key : ∀ (pre : List (BOp α τ)) (S : α × τ → Prop) (s : Box α τ), Holds S s → (∀ m, BOp.begin m ∈ pre → S m) → Holds S (s.after keep pre) := by
    intro pre
    induction pre with
    | nil => intro S s h _; exact h
    | cons o os ih =>
      intro S s h hS
      refine ih S _ ?_ fun m hm => hS m (by simp [hm])
      cases o with
      | «begin» m =>
        simp only [Box.step]
        split
        · exact h
        · exact ⟨hS m (by simp), h.cur, h.other, h.obj, h.stamp⟩
      | finish => exact ⟨h.main, h.cur, h.other, h.obj, h.stamp⟩
      | askSout t => exact h.readSout t
      | askObj t => exact h.readObj keep t
      | askStamp t => exact h.readStamp keep t
  have hh := key pre (fun m => m = m0 ∨ m = a0 ∨ m = b0 ∨ BOp.begin m ∈ pre) (Box.init m0 a0 b0)
    ⟨.inl rfl, .inr (.inl rfl), .inr (.inr (.inl rfl)), ⟨a0, .inr (.inl rfl), rfl⟩, ⟨a0, .inr (.inl rfl), rfl⟩⟩ (fun m hm => .inr (.inr (.inr hm)))
  intro x hx
  cases o with
  | «begin» m => simp [Box.step] at hx
  | finish => simp [Box.step] at hx
  | askSout t =>
    simp only [Box.step, List.mem_singleton] at hx
    subst hx
    exact (hh.readSout t).cur
  | askObj t =>
    simp only [Box.step, List.mem_singleton] at hx
    subst hx
    exact (hh.readObj keep t).obj
  | askStamp t =>
    simp only [Box.step, List.mem_singleton] at hx
    subst hx
    exact (hh.readStamp keep t).stamp

/-! ### Messages that are lost -/

/-- A state where `object` answers its value for ever. -/
theorem stuck (keep : Bool) {s : Box α τ} (h1 : s.objNew = false) (h2 : s.ready = false) (h3 : s.date ≤ s.objDate) (ts : List Int) :
    s.answers keep (ts.map .askObj) = ts.map fun _ => .obj s.obj := by
  induction ts with
  | nil => rfl
  | cons t ts ih =>
    have hs : s.readObj keep t = s := by
      have : ¬ s.objDate < s.date := by omega
      simp [Box.readObj, Box.stale, h1, h2, this]
    simp only [List.map_cons, Box.answers, Box.step, hs, ih]
    rfl

/-- **C146, one date.** A message posted between the readings of `object` and of `timestamp` at the same date: `timestamp` shows the new one,
and `object` never does, at any later date, although no reading meets a `post`. -/
theorem C146_same_date_counterexample (keep : Bool) (m0 a0 b0 m1 m2 : α × τ) (ts : List Int) :
    (Box.init m0 a0 b0).answers keep ([.begin m1, .finish, .askObj 1, .begin m2, .finish, .askStamp 1] ++ ts.map .askObj) =
      [.obj m1.1, .stamp m2.2] ++ ts.map fun _ => .obj m1.1 := by
  have he : (Box.init m0 a0 b0).after keep [.begin m1, .finish, .askObj 1, .begin m2, .finish, .askStamp 1] =
      ⟨m2, false, false, m2, m1, 1, m1.1, 1, false, m2.2, 1, false⟩ := by
    simp [Box.after, Box.step, Box.init, Box.readObj, Box.readStamp, Box.stale, Box.readSout, Box.compute]
  rw [answers_append, he, stuck keep rfl rfl (by simp)]
  congr 1

/-- **C146, during a post.** A reading that meets the third `post` shows the first message again, after the second one, and from then on
`object` shows it for ever: the third message is lost although its `post` has ended. -/
theorem C146_busy_counterexample (keep : Bool) (m0 a0 b0 m1 m2 m3 : α × τ) (ts : List Int) :
    (Box.init m0 a0 b0).answers keep
        ([.begin m1, .finish, .askObj 1, .begin m2, .finish, .askObj 2, .begin m3, .askObj 3, .finish] ++ ts.map .askObj) =
      [.obj m1.1, .obj m2.1, .obj m1.1] ++ ts.map fun _ => .obj m1.1 := by
  have he : (Box.init m0 a0 b0).after keep [.begin m1, .finish, .askObj 1, .begin m2, .finish, .askObj 2, .begin m3, .askObj 3, .finish] =
      ⟨m3, false, false, m1, m2, 3, m1.1, 3, false, a0.2, 0, true⟩ := by
    simp [Box.after, Box.step, Box.init, Box.readObj, Box.stale, Box.readSout, Box.compute]
  rw [answers_append, he, stuck keep rfl rfl (by simp)]
  congr 1
  simp [Box.answers, Box.step, Box.init, Box.readObj, Box.stale, Box.readSout, Box.compute]

/-- **C146, case.** Two rounds, the three outputs: the hypotheses of the theorems hold and the answers are those messages. -/
theorem C146_case (keep : Bool) :
    (Box.init (0, 0) (0, 0) (0, 0)).answers keep
        ([⟨some (1, 10), [.obj 1, .stamp 1, .sout 1]⟩, ⟨some (2, 20), [.stamp 2, .obj 2, .obj 2]⟩, ⟨none, [.obj 3]⟩].flatMap Round.ops) =
      ([.obj 1, .stamp 10, .sout (1, 10), .stamp 20, .obj 2, .obj 2, .obj 2] : List (BAns Nat Nat)) := by
  rw [C146_between_dates]
  · rfl
  · simp [Ask.time]

end Verif.Mailbox
