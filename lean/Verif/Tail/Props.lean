import Verif.Tail.Model
import Mathlib.Logic.Function.Iterate
import Mathlib.Tactic.Common

/-!
# Properties of the reader of a growing file (C108)
-/

namespace Verif.Tail

/-- A line that the reader can follow: not empty, at most 255 characters, without newline or null character. -/
def Plain (l : Line) : Prop := l ≠ [] ∧ l.length ≤ 255 ∧ '\n' ∉ l ∧ '\x00' ∉ l

/-- The text of complete lines. -/
def text (ls : List Line) : List Char := (ls.map (· ++ ['\n'])).flatten

theorem takeWhile_stop {p : Char → Bool} {l : List Char} (h : ∀ c ∈ l, p c = true) (c : Char) (r : List Char) (hc : p c = false) :
    (l ++ c :: r).takeWhile p = l := by
  induction l with
  | nil => simp [hc]
  | cons a l ih => simp [h a List.mem_cons_self, ih fun c hc => h c (List.mem_cons_of_mem _ hc)]

theorem takeWhile_all {p : Char → Bool} {l : List Char} (h : ∀ c ∈ l, p c = true) : l.takeWhile p = l := by
  induction l with
  | nil => rfl
  | cons a l ih => simp [h a List.mem_cons_self, ih fun c hc => h c (List.mem_cons_of_mem _ hc)]

theorem not_newline {l : Line} (h : '\n' ∉ l) : ∀ c ∈ l, decide (c ≠ '\n') = true := by
  intro c hc
  rw [decide_eq_true_iff]
  rintro rfl
  exact h hc

theorem asString_plain {l : Line} (h : '\x00' ∉ l) : asString l = l := by
  refine takeWhile_all ?_
  intro c hc
  rw [decide_eq_true_iff]
  rintro rfl
  exact h hc

theorem chunk_line {l : Line} (h : '\n' ∉ l) (hl : l.length ≤ 255) (r : List Char) : chunk (l ++ '\n' :: r) = l := by
  rw [chunk, takeWhile_stop (not_newline h) _ _ (by simp), chunkSize, List.take_of_length_le hl]

theorem chunk_end {l : Line} (h : '\n' ∉ l) (hl : l.length ≤ 255) : chunk l = l := by
  rw [chunk, takeWhile_all (not_newline h), chunkSize, List.take_of_length_le hl]

theorem scan_line (eager : Bool) {l : Line} (h : Plain l) (c : Nat) (r : List Char) :
    scan eager c (l ++ '\n' :: r) = (l :: (scan eager (c + l.length + 1) r).1, (scan eager (c + l.length + 1) r).2) := by
  rw [scan, chunk_line h.2.2.1 h.2.1]
  have hd : (l ++ '\n' :: r).drop l.length = '\n' :: r := by simp
  rw [dif_neg h.1, if_neg (by rw [hd]; simp)]
  split
  · rename_i hr
    rw [hd] at hr
    cases hr
  · rename_i a r' hr
    rw [hd] at hr
    cases hr
    rw [asString_plain h.2.2.2]

theorem scan_text (eager : Bool) {ls : List Line} (h : ∀ l ∈ ls, Plain l) (c : Nat) (r : List Char) :
    scan eager c (text ls ++ r) = (ls ++ (scan eager (c + (text ls).length) r).1, (scan eager (c + (text ls).length) r).2) := by
  induction ls generalizing c with
  | nil => simp [text]
  | cons l ls ih =>
    have e : text (l :: ls) ++ r = l ++ '\n' :: (text ls ++ r) := by simp [text]
    have en : (text (l :: ls)).length = l.length + 1 + (text ls).length := by simp [text]; omega
    have ea : c + l.length + 1 + (text ls).length = c + (l.length + 1 + (text ls).length) := by omega
    rw [e, scan_line eager (h l List.mem_cons_self), ih fun l hl => h l (List.mem_cons_of_mem _ hl), en, ea]
    rfl

theorem scan_nil (eager : Bool) (c : Nat) : scan eager c [] = ([], c) := by
  rw [scan]
  simp [chunk]

/-! ### Following a file -/

/-- What happens: complete lines are added to the file and the file is read, or a line is taken. -/
inductive Op where
  | loop (new : List Line)
  | next

/-- The file, the stream, and the lines that were taken. -/
structure World where
  file : List Char
  stream : Stream
  taken : List Line

/-- One event; a line is taken only when there is one. -/
def World.step (eager : Bool) (w : World) : Op → World
  | .loop new => ⟨w.file ++ text new, (w.stream.loop eager (some (w.file ++ text new))).1, w.taken⟩
  | .next =>
    match w.stream.next with
    | .ok (l, s) => ⟨w.file, s, w.taken ++ [l]⟩
    | _ => w

/-- The lines that are added by the events. -/
def added : List Op → List Line
  | [] => []
  | .loop new :: l => new ++ added l
  | .next :: l => added l

/-- The lines that are added are plain. -/
def PlainOps (l : List Op) : Prop := ∀ o ∈ l, ∀ new, o = .loop new → ∀ x ∈ new, Plain x

/-- **C108.** While complete lines are added to the file, a loop gives exactly the lines that were added since the last one and returns
whether there are any. -/
theorem C108_loop (eager : Bool) {s : Stream} {file : List Char} (hs : s.cursor = file.length) (hf : s.first = false) {new : List Line}
    (hn : ∀ l ∈ new, Plain l) :
    s.loop eager (some (file ++ text new)) = (⟨(file ++ text new).length, s.reader ++ new, false⟩, !new.isEmpty) := by
  have h := scan_text eager hn s.cursor []
  rw [List.append_nil, scan_nil] at h
  simp only [Stream.loop, hs, List.drop_left, hf]
  rw [hs] at h
  rw [h]
  simp

theorem follow (eager : Bool) (l : List Op) (hl : PlainOps l) : ∀ w : World, w.stream.cursor = w.file.length → w.stream.first = false →
    (l.foldl (World.step eager) w).taken ++ (l.foldl (World.step eager) w).stream.reader = w.taken ++ w.stream.reader ++ added l ∧
      (l.foldl (World.step eager) w).file = w.file ++ text (added l) := by
  induction l with
  | nil => intro w _ _; simp [added, text]
  | cons o l ih =>
    intro w hc hf
    have hl' : PlainOps l := fun o ho => hl o (List.mem_cons_of_mem _ ho)
    cases o with
    | loop new =>
      have h := C108_loop eager hc hf (hl _ List.mem_cons_self new rfl)
      have h1 := ih hl' (w.step eager (.loop new)) (by simp only [World.step, h]) (by simp only [World.step, h])
      rw [List.foldl_cons]
      rw [h1.1, h1.2]
      simp only [World.step, h, added]
      simp [text]
    | next =>
      rw [List.foldl_cons]
      cases hr : w.stream.reader with
      | nil =>
        have e : w.step eager .next = w := by simp [World.step, Stream.next, hr]
        rw [e]
        have := ih hl' w hc hf
        rw [hr] at this
        exact this
      | cons x xs =>
        have e : w.step eager .next = ⟨w.file, { w.stream with reader := xs }, w.taken ++ [x]⟩ := by simp [World.step, Stream.next, hr]
        rw [e]
        have := ih hl' ⟨w.file, { w.stream with reader := xs }, w.taken ++ [x]⟩ hc hf
        simpa [added] using this

/-- **C108.** After the first loop, which skips what the file contains, the lines that are given, in order, are exactly those that are added
to the file: over any history none is lost, repeated or changed. -/
theorem C108_follow (eager : Bool) {old : List Line} (ho : ∀ l ∈ old, Plain l) {l : List Op} (hl : PlainOps l) :
    ((.loop old :: l).foldl (World.step eager) ⟨[], .new, []⟩).taken ++ ((.loop old :: l).foldl (World.step eager) ⟨[], .new, []⟩).stream.reader =
      added l := by
  have h := scan_text eager ho 0 []
  rw [List.append_nil, scan_nil] at h
  have e : World.step eager ⟨[], .new, []⟩ (.loop old) = ⟨text old, ⟨(text old).length, [], false⟩, []⟩ := by
    simp only [World.step, Stream.loop, Stream.new, List.nil_append, List.drop_zero, h]
    simp
  rw [List.foldl_cons, e]
  have := (follow eager l hl ⟨text old, ⟨(text old).length, [], false⟩, []⟩ rfl rfl).1
  simpa using this

/-- **C108.** A file that cannot be opened gives nothing, and is not skipped when it appears later. -/
theorem C108_missing_file (eager : Bool) {new : List Line} (hn : ∀ l ∈ new, Plain l) :
    ((Stream.new.loop eager none).1.loop eager (some (text new))).1.reader = new ∧ (Stream.new.loop eager none).2 = false := by
  have h := C108_loop eager (s := (Stream.new.loop eager none).1) (file := []) rfl rfl hn
  rw [List.nil_append] at h
  rw [h]
  exact ⟨rfl, rfl⟩

/-- **C108.** Opening another file after a loop gives all the lines that it contains: it is not skipped as the first one. -/
theorem C108_open (eager : Bool) {s : Stream} (hf : s.first = false) {ls : List Line} (hn : ∀ l ∈ ls, Plain l) :
    (s.reopen.loop eager (some (text ls))).1.reader = s.reader ++ ls := by
  have h := C108_loop eager (s := s.reopen) (file := []) rfl hf hn
  rw [List.nil_append] at h
  rw [h]
  rfl

/-- **C108.** `ready` tells whether `next` can be called. -/
theorem C108_ready (s : Stream) : s.ready = true ↔ ∃ r, s.next = .ok r := by
  cases s with
  | mk c r f => cases r <;> simp [Stream.ready, Stream.next]

/-- **C108.** `next` without a line accesses the front of an empty list. -/
theorem C108_next_counterexample (s : Stream) (h : s.reader = []) : s.next = .ub := by simp [Stream.next, h]

/-! ### Where it fails -/

/-- **C108.** An empty line stops the reader for ever: whatever is added to the file afterwards, no loop gives any line. -/
theorem C108_empty_line_counterexample (eager : Bool) {s : Stream} {file : List Char} (hs : s.cursor = file.length) (more : List (List Char)) :
    let final := more.foldl (fun (p : List Char × Stream) m => (p.1 ++ m, (p.2.loop eager (some (p.1 ++ m))).1)) (file ++ ['\n'], s)
    final.2.reader = s.reader ∧ ∀ m, (final.2.loop eager (some (final.1 ++ m))).2 = false := by
  have one : ∀ (s : Stream) (t : List Char), s.cursor = file.length →
      s.loop eager (some (file ++ '\n' :: t)) = (⟨s.cursor, s.reader, false⟩, false) := by
    intro s t h
    have hsc : scan eager file.length ('\n' :: t) = ([], file.length) := by
      rw [scan]
      simp [chunk]
    simp only [Stream.loop, h, List.drop_left, hsc]
    simp
  have key : ∀ (more : List (List Char)) (s : Stream) (t : List Char), s.cursor = file.length →
      (more.foldl (fun (p : List Char × Stream) m => (p.1 ++ m, (p.2.loop eager (some (p.1 ++ m))).1)) (file ++ '\n' :: t, s)).2.reader = s.reader ∧
      (more.foldl (fun (p : List Char × Stream) m => (p.1 ++ m, (p.2.loop eager (some (p.1 ++ m))).1)) (file ++ '\n' :: t, s)).2.cursor =
        file.length ∧
      ∃ t', (more.foldl (fun (p : List Char × Stream) m => (p.1 ++ m, (p.2.loop eager (some (p.1 ++ m))).1)) (file ++ '\n' :: t, s)).1 =
        file ++ '\n' :: t' := by
    intro more
    induction more with
    | nil => exact fun s t h => ⟨rfl, h, t, rfl⟩
    | cons m more ih =>
      intro s t h
      rw [List.foldl_cons]
      have e : (file ++ '\n' :: t) ++ m = file ++ '\n' :: (t ++ m) := by simp
      simp only [e]
      rw [one s _ h]
      exact ih _ (t ++ m) h
  intro final
  obtain ⟨h1, h2, t', h3⟩ := key more s [] hs
  refine ⟨h1, ?_⟩
  intro m
  show (Stream.loop eager (List.foldl _ (file ++ ['\n'], s) more).2 (some ((List.foldl _ (file ++ ['\n'], s) more).1 ++ m))).2 = false
  rw [h3]
  have e : (file ++ '\n' :: t') ++ m = file ++ '\n' :: (t' ++ m) := by simp
  rw [e, one _ _ h2]

/-- **C108.** A last line without a newline, as when the writer is in the middle of a line, sends the cursor back to the beginning: each
further loop gives the whole file again. -/
theorem C108_incomplete_line_counterexample (eager : Bool) {ls : List Line} (hl : ∀ l ∈ ls, Plain l) {p : Line} (hp : Plain p)
    (hlen : p.length < 255) (s : Stream) (hs : s.cursor = 0) (hf : s.first = false) (n : Nat) :
    ((fun s : Stream => (s.loop eager (some (text ls ++ p))).1)^[n] s).reader = s.reader ++ (List.replicate n (ls ++ [p])).flatten := by
  have hlast : ∀ c, scan eager c p = ([p], 0) := by
    intro c
    rw [scan, chunk_end hp.2.2.1 hp.2.1, dif_neg hp.1, if_pos ⟨by simp, .inl hlen⟩, asString_plain hp.2.2.2]
  have one : ∀ s : Stream, s.cursor = 0 → s.first = false →
      s.loop eager (some (text ls ++ p)) = (⟨0, s.reader ++ (ls ++ [p]), false⟩, true) := by
    intro s hs hf
    have h := scan_text eager hl 0 p
    rw [hlast] at h
    simp only [Stream.loop, hs, List.drop_zero, h, hf]
    simp
  induction n generalizing s with
  | zero => simp
  | succ n ih =>
    rw [Function.iterate_succ_apply, one s hs hf, ih _ rfl rfl, List.replicate_succ, List.flatten_cons]
    simp

/-- **C108.** A line of more than 255 characters is cut, and the character at the cut is lost. -/
theorem C108_long_line_counterexample (eager : Bool) {a : Line} (ha : a.length = 255) (hn : '\n' ∉ a) (h0 : '\x00' ∉ a) (c : Char) (cursor : Nat)
    {b : Line} (hb : Plain b) (r : List Char) :
    scan eager cursor (a ++ c :: b ++ '\n' :: r) =
      (a :: b :: (scan eager (cursor + 257 + b.length) r).1, (scan eager (cursor + 257 + b.length) r).2) := by
  have hch : chunk (a ++ c :: b ++ '\n' :: r) = a := by
    have htw : ((a ++ c :: b ++ '\n' :: r).takeWhile (· ≠ '\n')) = a ++ (c :: b ++ '\n' :: r).takeWhile (· ≠ '\n') := by
      rw [List.append_assoc]
      generalize c :: b ++ '\n' :: r = q
      have := not_newline hn
      clear ha hn h0
      induction a with
      | nil => rfl
      | cons x a ih =>
        have hx := this x List.mem_cons_self
        rw [List.cons_append, List.takeWhile_cons_of_pos (p := fun x => decide (x ≠ '\n')) hx, ih fun c hc => this c (List.mem_cons_of_mem _ hc)]
        rfl
    rw [chunk, htw, chunkSize, ← ha, List.take_left']
    rfl
  have hne : a ≠ [] := by
    rintro rfl
    simp at ha
  have hd : (a ++ c :: b ++ '\n' :: r).drop a.length = c :: (b ++ '\n' :: r) := by simp
  rw [scan, hch, dif_neg hne, if_neg (by rw [hd]; simp)]
  split
  · rename_i hr
    rw [hd] at hr
    cases hr
  · rename_i x r' hr
    rw [hd] at hr
    cases hr
    have e : cursor + a.length + 1 + b.length + 1 = cursor + 257 + b.length := by omega
    simp only [asString_plain h0, scan_line eager hb, e]

/-- A file with one line, to which two lines are added, one of which is taken. -/
theorem C108_case : Plain ['a'] ∧ Plain ['b', 'c'] ∧
    ([.loop [['a']], .loop [['b', 'c'], ['a']], .next].foldl (World.step true) ⟨[], .new, []⟩).taken = [['b', 'c']] := by
  have h1 : Plain ['a'] := by simp [Plain]
  have h2 : Plain ['b', 'c'] := by simp [Plain]
  refine ⟨h1, h2, ?_⟩
  have hf := scan_text true (ls := [['a']]) (by simpa using h1) 0 []
  rw [List.append_nil, scan_nil] at hf
  have e : World.step true ⟨[], .new, []⟩ (.loop [['a']]) = ⟨text [['a']], ⟨(text [['a']]).length, [], false⟩, []⟩ := by
    simp only [World.step, Stream.loop, Stream.new, List.nil_append, List.drop_zero, hf]
    simp
  have h := C108_loop true (s := ⟨(text [['a']]).length, [], false⟩) (file := text [['a']]) rfl rfl (new := [['b', 'c'], ['a']])
    (by simp only [List.mem_cons, List.not_mem_nil, or_false, forall_eq_or_imp, forall_eq]; exact ⟨h2, h1⟩)
  rw [List.foldl_cons, e, List.foldl_cons]
  simp only [World.step, h, List.foldl_cons, List.foldl_nil, Stream.next, List.nil_append]

end Verif.Tail
