import Verif.Debug.Model

/-!
# C118: the traces

The specification is a journal: the contents of the files and the file that is written now, if any. It knows neither streams that failed nor
texts that wait.
-/

namespace Verif.Debug

/-! ## Specification -/

/-- What is kept of a rendering: a number of characters, and only those before a null one. -/
def kept : Nat → List Char → List Char
  | 0, _ => []
  | _ + 1, [] => []
  | n + 1, c :: cs => if c = '\x00' then [] else c :: kept n cs

/-- What a statement writes: nothing if its level is above the mode of its file, and at most 511 characters of a format. The level of the
formatted errors is compared with zero. -/
def shown : Op → List Char
  | .debug mode level pre text => if level ≤ mode then pre ++ text else []
  | .debugf mode level pre text => if level ≤ mode then pre ++ kept 511 text ++ ['\n'] else []
  | .error pre text => pre ++ text
  | .errorf level pre text => if level ≤ 0 then pre ++ kept 511 text ++ ['\n'] else []
  | .errorfAlways pre text => pre ++ kept 511 text ++ ['\n']
  | _ => []

/-- What a statement writes in a program without traces: only the errors that are not formatted. -/
def shownQuiet : Op → List Char
  | .error pre text => pre ++ text
  | _ => []

/-- The journal: the contents of the files and the one that is written now. -/
structure Log where
  content : String → List Char
  current : Option String

/-- A statement on the journal. -/
def Log.step (sh : Op → List Char) (can : String → Bool) (l : Log) (op : Op) : Log :=
  match op with
  | .openFile name => if can name then ⟨fun g => if g = name then [] else l.content g, some name⟩ else ⟨l.content, none⟩
  | .closeFile => ⟨l.content, none⟩
  | op =>
    match l.current with
    | none => l
    | some f => ⟨fun g => if g = f then l.content g ++ sh op else l.content g, some f⟩

/-- The statement does not change the disk. -/
def NoDisk : Op → Prop
  | .disk _ => False
  | _ => True

/-- The state agrees with the journal. -/
def Agrees (s : State) (l : Log) : Prop :=
  s.content = l.content ∧ s.stream.file = l.current ∧ (s.stream.failed = true ↔ l.current = none)

/-! ## Lemmas -/

theorem cut_kept (t : List Char) : cut t = kept 511 t := by
  unfold cut
  generalize 511 = n
  induction t generalizing n with
  | nil => cases n <;> simp [kept]
  | cons c cs ih =>
    cases n with
    | zero => simp [kept]
    | succ n => by_cases hc : c = '\x00' <;> simp [kept, hc, ← ih]

/-- The invariant of the executions: nothing waits, the level of the errors is zero. -/
def Idle (s : State) : Prop := s.debug.tmp = [] ∧ s.error = ⟨[], 0⟩

theorem write_flows (s : State) (t : List Char) :
    (write s t).debug = s.debug ∧ (write s t).error = s.error ∧ (write s t).disk = s.disk := by
  unfold write
  split
  · simp
  · split
    · simp
    · split <;> simp

theorem idle_step (can : String → Bool) (s : State) (op : Op) (h : Idle s) : Idle (step can s op) := by
  obtain ⟨h1, h2⟩ := h
  have hw := fun t => write_flows s t
  cases op with
  | debug m l p t =>
    unfold step Idle
    dsimp only
    split
    · exact ⟨h1, h2⟩
    · rw [(hw _).1, (hw _).2.1]; exact ⟨h1, h2⟩
  | debugf m l p t =>
    unfold step Idle traceDebug
    dsimp only
    split
    · exact ⟨h1, h2⟩
    · refine ⟨rfl, ?_⟩
      dsimp only
      split
      · rw [(write_flows _ _).2.1]; exact h2
      · exact h2
  | error p t =>
    unfold step Idle
    dsimp only
    split
    · exact ⟨h1, h2⟩
    · rw [(hw _).1, (hw _).2.1]; exact ⟨h1, h2⟩
  | errorf l p t =>
    unfold step Idle traceError
    dsimp only
    split
    · exact ⟨h1, h2⟩
    · dsimp only
      split
      · rw [(write_flows _ _).1, (write_flows _ _).2.1]; exact ⟨h1, by rw [h2]⟩
      · exact ⟨h1, by rw [h2]⟩
  | errorfAlways p t =>
    unfold step Idle traceErrorAlways
    dsimp only
    split
    · exact ⟨h1, h2⟩
    · dsimp only
      rw [(write_flows _ _).1, (write_flows _ _).2.1]; exact ⟨h1, by rw [h2]⟩
  | openFile n =>
    unfold step Idle openFile closeGood
    dsimp only
    repeat' split
    all_goals exact ⟨h1, h2⟩
  | closeFile =>
    unfold step Idle closeFile closeGood
    dsimp only
    split
    all_goals exact ⟨h1, h2⟩
  | disk b => exact ⟨h1, h2⟩

theorem disk_step (can : String → Bool) (s : State) (op : Op) (hn : NoDisk op) : (step can s op).disk = s.disk := by
  cases op with
  | disk b => exact absurd hn id
  | debug m l p t => unfold step; dsimp only; split <;> simp [write_flows]
  | error p t => unfold step; dsimp only; split <;> simp [write_flows]
  | debugf m l p t => unfold step traceDebug; dsimp only; repeat' split
                      all_goals simp [write_flows]
  | errorf l p t => unfold step traceError; dsimp only; repeat' split
                    all_goals simp [write_flows]
  | errorfAlways p t => unfold step traceErrorAlways; dsimp only; repeat' split
                        all_goals simp [write_flows]
  | openFile n => unfold step openFile closeGood; dsimp only; repeat' split
                  all_goals rfl
  | closeFile => unfold step closeFile closeGood; dsimp only; repeat' split
                 all_goals rfl

theorem write_open {s : State} {f : String} (h : s.stream = ⟨some f, false⟩) (hd : s.disk = true) (t : List Char) :
    write s t = { s with content := fun g => if g = f then s.content g ++ t else s.content g } := by
  unfold write
  simp [h, hd]

theorem write_failed {s : State} (h : s.stream.failed = true) (t : List Char) : write s t = s := by
  unfold write
  simp [h]

theorem open_agrees (can : String → Bool) (n : String) {s : State} {l : Log} (h : Agrees s l) (sh : Op → List Char) :
    Agrees (openFile can n s) (l.step sh can (.openFile n)) := by
  obtain ⟨hc, hf, hx⟩ := h
  obtain ⟨content, disk, ⟨file, failed⟩, d, e⟩ := s
  obtain ⟨lc, cur⟩ := l
  simp only at hc hf hx
  subst hc hf
  cases file <;> cases failed <;> simp at hx <;> cases hcan : can n <;>
    simp [openFile, closeGood, Log.step, Agrees, hcan]

theorem close_agrees (can : String → Bool) {s : State} {l : Log} (h : Agrees s l) (sh : Op → List Char) :
    Agrees (closeFile s) (l.step sh can .closeFile) := by
  obtain ⟨hc, hf, hx⟩ := h
  obtain ⟨content, disk, ⟨file, failed⟩, d, e⟩ := s
  obtain ⟨lc, cur⟩ := l
  simp only at hc hf hx
  subst hc hf
  cases file <;> cases failed <;> simp at hx <;> simp [closeFile, closeGood, Log.step, Agrees]

theorem write_agrees {s : State} {l : Log} (h : Agrees s l) (hd : s.disk = true) (t : List Char) :
    Agrees (write s t) (match l.current with
      | none => l
      | some f => ⟨fun g => if g = f then l.content g ++ t else l.content g, some f⟩) := by
  obtain ⟨hc, hf, hx⟩ := h
  obtain ⟨content, disk, ⟨file, failed⟩, d, e⟩ := s
  obtain ⟨lc, cur⟩ := l
  simp only at hc hf hx hd
  subst hc hf hd
  cases file <;> cases failed <;> simp at hx <;> simp [write, Agrees]

theorem agrees_flows {s s' : State} {l : Log} (h : Agrees s l) (hc : s'.content = s.content) (hs : s'.stream = s.stream) : Agrees s' l := by
  unfold Agrees at *
  rw [hc, hs]
  exact h

theorem agrees_nil {s : State} {l : Log} (h : Agrees s l) :
    Agrees s (match l.current with
      | none => l
      | some f => ⟨fun g => if g = f then l.content g ++ [] else l.content g, some f⟩) := by
  obtain ⟨lc, cur⟩ := l
  cases cur <;> simpa [Agrees] using h

theorem step_agrees (can : String → Bool) (s : State) (l : Log) (op : Op) (h : Agrees s l) (hd : s.disk = true) (hi : Idle s)
    (hn : NoDisk op) : Agrees (step can s op) (l.step shown can op) := by
  have hfail : s.stream.failed = true → ∀ t : List Char, Agrees s (match l.current with
      | none => l
      | some f => ⟨fun g => if g = f then l.content g ++ t else l.content g, some f⟩) := by
    intro hf t
    rw [h.2.2.mp hf]
    exact h
  cases op with
  | openFile n => exact open_agrees can n h _
  | closeFile => exact close_agrees can h _
  | disk b => exact absurd hn id
  | debug m lv p t =>
    unfold step Log.step shown
    dsimp only
    by_cases h1 : s.stream.failed = true
    · rw [if_pos (Or.inr h1)]; exact hfail h1 _
    · by_cases h2 : lv ≤ m
      · rw [if_neg (by simp [h1]; omega), if_pos h2]; exact write_agrees h hd _
      · rw [if_pos (Or.inl (by omega)), if_neg h2]; exact agrees_nil h
  | error p t =>
    unfold step Log.step shown
    dsimp only
    by_cases h1 : s.stream.failed = true
    · rw [if_pos h1]; exact hfail h1 _
    · rw [if_neg h1]; exact write_agrees h hd _
  | debugf m lv p t =>
    unfold step Log.step shown traceDebug
    dsimp only
    by_cases h1 : s.stream.failed = true
    · rw [if_pos h1]; exact hfail h1 _
    · rw [if_neg h1, hi.1, List.nil_append, cut_kept]
      by_cases h2 : lv ≤ m
      · rw [if_pos h2, if_pos h2]
        exact agrees_flows (write_agrees (s := { s with debug := ⟨p, m⟩ }) h hd _) rfl rfl
      · rw [if_neg h2, if_neg h2]; exact agrees_nil (agrees_flows h rfl rfl)
  | errorf lv p t =>
    unfold step Log.step shown traceError
    dsimp only
    by_cases h1 : s.stream.failed = true
    · rw [if_pos h1]; exact hfail h1 _
    · rw [if_neg h1, hi.2, List.nil_append, cut_kept]
      by_cases h2 : lv ≤ 0
      · rw [if_pos h2, if_pos h2]
        exact agrees_flows (write_agrees (s := { s with error := ⟨p, 0⟩ }) h hd _) rfl rfl
      · rw [if_neg h2, if_neg h2]; exact agrees_nil (agrees_flows h rfl rfl)
  | errorfAlways p t =>
    unfold step Log.step shown traceErrorAlways
    dsimp only
    by_cases h1 : s.stream.failed = true
    · rw [if_pos h1]; exact hfail h1 _
    · rw [if_neg h1, hi.2, List.nil_append, cut_kept]
      exact agrees_flows (write_agrees (s := { s with error := ⟨p, 0⟩ }) h hd _) rfl rfl

theorem start_agrees (can : String → Bool) (c : String → List Char) :
    Agrees (start can c) (Log.step shown can ⟨c, none⟩ (.openFile "/tmp/sot-core-traces.txt")) := by
  unfold start Log.step Agrees
  dsimp only
  split <;> simp

theorem start_idle (can : String → Bool) (c : String → List Char) : Idle (start can c) ∧ (start can c).disk = true := by
  unfold start Idle
  dsimp only
  split <;> simp

theorem run_agrees (can : String → Bool) (ops : List Op) : ∀ (s : State) (l : Log), Agrees s l → s.disk = true → Idle s →
    (∀ op ∈ ops, NoDisk op) → Agrees (run can s ops) (ops.foldl (Log.step shown can) l) ∧ Idle (run can s ops) := by
  induction ops with
  | nil => intro s l h _ hi _; exact ⟨h, hi⟩
  | cons op ops ih =>
    intro s l h hd hi ho
    have hop := ho op (List.mem_cons_self ..)
    exact ih _ _ (step_agrees can s l op h hd hi hop) ((disk_step can s op hop).trans hd) (idle_step can s op hi)
      (fun o hm => ho o (List.mem_cons_of_mem _ hm))

/-! ## Theorems -/

/-- C118: as long as the disk accepts what is written, the files hold exactly what the journal says, whatever the statements of the program:
the lines whose level is not above the mode, in order, in the file opened last, and nothing while no file is open. -/
theorem C118_journal (can : String → Bool) (c : String → List Char) (ops : List Op) (h : ∀ op ∈ ops, NoDisk op) :
    Agrees (run can (start can c) ops)
      (ops.foldl (Log.step shown can) (Log.step shown can ⟨c, none⟩ (.openFile "/tmp/sot-core-traces.txt"))) :=
  (run_agrees can ops _ _ (start_agrees can c) (start_idle can c).2 (start_idle can c).1 h).1

/-- C118: between two openings, what is added to the file is the lines that are shown, one after the other. -/
theorem C118_lines (can : String → Bool) (ops : List Op) (s : State) (f : String) (hs : s.stream = ⟨some f, false⟩) (hd : s.disk = true)
    (hi : s.debug.tmp = [] ∧ s.error = ⟨[], 0⟩) (h : ∀ op ∈ ops, NoDisk op ∧ op ≠ .closeFile ∧ ∀ n, op ≠ .openFile n) :
    (run can s ops).content f = s.content f ++ ops.flatMap shown ∧ (∀ g, g ≠ f → (run can s ops).content g = s.content g) ∧
    (run can s ops).stream = ⟨some f, false⟩ := by
  have ha : Agrees s ⟨s.content, some f⟩ := by unfold Agrees; simp [hs]
  have hr := (run_agrees can ops s _ ha hd hi (fun o ho => (h o ho).1)).1
  have key : ∀ (ops : List Op) (c : String → List Char), (∀ op ∈ ops, op ≠ .closeFile ∧ ∀ n, op ≠ .openFile n) →
      ops.foldl (Log.step shown can) ⟨c, some f⟩ = ⟨fun g => if g = f then c g ++ ops.flatMap shown else c g, some f⟩ := by
    intro ops
    induction ops with
    | nil => intro c _; simp
    | cons op ops ih =>
      intro c ho
      have hop := ho op (List.mem_cons_self ..)
      have hs : Log.step shown can ⟨c, some f⟩ op = ⟨fun g => if g = f then c g ++ shown op else c g, some f⟩ := by
        cases op with
        | openFile n => exact absurd rfl (hop.2 n)
        | closeFile => exact absurd rfl hop.1
        | _ => rfl
      rw [List.foldl_cons, hs, ih _ (fun o hm => ho o (List.mem_cons_of_mem _ hm))]
      simp only [Log.mk.injEq, and_true]
      funext g
      split <;> simp
  rw [key ops _ (fun o ho => (h o ho).2)] at hr
  obtain ⟨h1, h2, h3⟩ := hr
  refine ⟨by rw [h1]; simp, fun g hg => by rw [h1]; simp [hg], ?_⟩
  cases hst : (run can s ops).stream with
  | mk a b =>
    rw [hst] at h2 h3
    simp only at h2 h3
    subst h2
    cases b
    · rfl
    · simp at h3

/-- C118: no text waits after a statement, even if the disk fails: what was not shown is never written later. -/
theorem C118_nothing_waits (can : String → Bool) (c : String → List Char) (ops : List Op) :
    (run can (start can c) ops).debug.tmp = [] ∧ (run can (start can c) ops).error = ⟨[], 0⟩ := by
  have key : ∀ (ops : List Op) (s : State), Idle s → Idle (run can s ops) := by
    intro ops
    induction ops with
    | nil => intro s h; exact h
    | cons op ops ih => intro s h; exact ih _ (idle_step can s op h)
  exact key ops _ (start_idle can c).1

/-- C118: opening a file gives a stream that writes in it, and an empty file, or a stream that failed, and no file is changed. -/
theorem C118_open (can : String → Bool) (n : String) (s : State) :
    ((openFile can n s).stream = ⟨some n, false⟩ ∧ (openFile can n s).content n = [] ∧
      ∀ g, g ≠ n → (openFile can n s).content g = s.content g) ∨
    ((openFile can n s).stream.failed = true ∧ (openFile can n s).content = s.content) := by
  obtain ⟨content, disk, ⟨file, failed⟩, d, e⟩ := s
  cases file <;> cases failed <;> cases hcan : can n <;> simp +contextual [openFile, closeGood, hcan]

/-- C118: opening succeeds exactly if the system accepts and the stream did not fail with a file open. -/
theorem C118_open_iff (can : String → Bool) (n : String) (s : State) :
    (openFile can n s).stream.failed = false ↔ can n = true ∧ (s.stream.failed = false ∨ s.stream.file = none) := by
  obtain ⟨content, disk, ⟨file, failed⟩, d, e⟩ := s
  cases file <;> cases failed <;> cases hcan : can n <;> simp [openFile, closeGood, hcan]

/-- C118: after any statements, even if the disk fails, the stream has a file or it has failed; a stream without a file would fail at the first
text. -/
theorem C118_never_dangling (can : String → Bool) (c : String → List Char) (ops : List Op) :
    ((run can (start can c) ops).stream.failed = true ∨ (run can (start can c) ops).stream.file.isSome = true) ∧
    ∀ (s : State) (t : List Char), s.stream = ⟨none, false⟩ → (write s t).stream = ⟨none, true⟩ ∧ (write s t).content = s.content := by
  constructor
  · have hw : ∀ (s : State) (t : List Char), (s.stream.failed = true ∨ s.stream.file.isSome = true) →
        ((write s t).stream.failed = true ∨ (write s t).stream.file.isSome = true) := by
      rintro ⟨content, disk, ⟨file, failed⟩, d, e⟩ t h
      cases file <;> cases failed <;> cases disk <;> simp_all [write]
    have hs : ∀ (s : State) (op : Op), (s.stream.failed = true ∨ s.stream.file.isSome = true) →
        ((step can s op).stream.failed = true ∨ (step can s op).stream.file.isSome = true) := by
      intro s op h
      cases op with
      | debug m l p t => unfold step; dsimp only; split; exact h; exact hw _ _ h
      | debugf m l p t =>
        unfold step traceDebug; dsimp only
        split
        · exact h
        · dsimp only
          split
          · exact hw _ _ h
          · exact h
      | error p t => unfold step; dsimp only; split; exact h; exact hw _ _ h
      | errorf l p t =>
        unfold step traceError; dsimp only
        split
        · exact h
        · dsimp only
          split
          · exact hw _ _ h
          · exact h
      | errorfAlways p t =>
        unfold step traceErrorAlways; dsimp only
        split
        · exact h
        · exact hw _ _ h
      | openFile n =>
        rcases C118_open can n s with ⟨h1, _⟩ | ⟨h1, _⟩
        · right; show (openFile can n s).stream.file.isSome = true; rw [h1]; rfl
        · left; exact h1
      | closeFile => left; rfl
      | disk b => exact h
    have key : ∀ (ops : List Op) (s : State), (s.stream.failed = true ∨ s.stream.file.isSome = true) →
        ((run can s ops).stream.failed = true ∨ (run can s ops).stream.file.isSome = true) := by
      intro ops
      induction ops with
      | nil => intro s h; exact h
      | cons op ops ih => intro s h; exact ih _ (hs s op h)
    refine key ops _ ?_
    unfold start
    dsimp only
    split <;> simp
  · intro s t h
    simp [write, h]

/-- C118, counterexample: opening the file that is written erases the traces written so far. -/
theorem C118_erased_counterexample (can : String → Bool) (n : String) (s : State) (hc : can n = true) (hs : s.stream = ⟨some n, false⟩) :
    (openFile can n s).content n = [] := by
  simp [openFile, closeGood, hs, hc]

/-- C118: closing, and then nothing is written until a file is opened. -/
theorem C118_close (can : String → Bool) (s : State) (ops : List Op) (h : ∀ op ∈ ops, ∀ n, op ≠ .openFile n) :
    (run can (closeFile s) ops).content = s.content := by
  have key : ∀ (ops : List Op) (s : State), s.stream.failed = true → (∀ op ∈ ops, ∀ n, op ≠ .openFile n) →
      (run can s ops).content = s.content := by
    intro ops
    induction ops with
    | nil => intro s _ _; rfl
    | cons op ops ih =>
      intro s hs ho
      have hop : (step can s op).content = s.content ∧ (step can s op).stream.failed = true := by
        cases op with
        | openFile n => exact absurd rfl (ho _ (List.mem_cons_self ..) n)
        | closeFile => unfold step closeFile closeGood; simp [hs]
        | _ => unfold step; simp [hs]
      rw [show run can s (op :: ops) = run can (step can s op) ops from rfl,
        ih _ hop.2 (fun o hm => ho o (List.mem_cons_of_mem _ hm)), hop.1]
  have h0 : (closeFile s).content = s.content := by unfold closeFile closeGood; dsimp only; split <;> rfl
  rw [key ops _ rfl h, h0]

/-- C118, counterexample: once a line was refused by the disk, nothing is written any more, whatever is opened or closed, even if the disk
accepts again. -/
theorem C118_stuck_counterexample (can : String → Bool) (s : State) (f : String) (hs : s.stream = ⟨some f, false⟩) (hd : s.disk = false)
    (pre text : List Char) (ops : List Op) :
    (run can s (.error pre text :: ops)).content = s.content ∧ (run can s (.error pre text :: ops)).stream = ⟨some f, true⟩ := by
  have key : ∀ (ops : List Op) (s : State), s.stream = ⟨some f, true⟩ →
      (run can s ops).content = s.content ∧ (run can s ops).stream = ⟨some f, true⟩ := by
    intro ops
    induction ops with
    | nil => intro s h; exact ⟨rfl, h⟩
    | cons op ops ih =>
      intro s hs
      have hop : (step can s op).content = s.content ∧ (step can s op).stream = ⟨some f, true⟩ := by
        cases op with
        | openFile n => unfold step openFile closeGood; simp [hs]
        | closeFile => unfold step closeFile closeGood; simp [hs]
        | _ => unfold step; simp [hs]
      rw [show run can s (op :: ops) = run can (step can s op) ops from rfl]
      have := ih _ hop.2
      exact ⟨this.1.trans hop.1, this.2⟩
  have h1 : step can s (.error pre text) = { s with stream := ⟨some f, true⟩ } := by
    unfold step write
    simp [hs, hd]
  rw [show run can s (.error pre text :: ops) = run can (step can s (.error pre text)) ops from rfl, h1]
  exact key ops _ rfl

/-- C118, counterexample: a formatted error of a level above zero is never written, whatever the mode of the program. -/
theorem C118_error_level_counterexample (can : String → Bool) (c : String → List Char) (ops : List Op) (level : Int) (hl : 0 < level)
    (pre text : List Char) :
    (run can (start can c) (ops ++ [.errorf level pre text])).content = (run can (start can c) ops).content := by
  have hi := C118_nothing_waits can c ops
  unfold run at *
  rw [List.foldl_append, List.foldl_cons, List.foldl_nil]
  generalize List.foldl (step can) (start can c) ops = s at hi ⊢
  unfold step traceError
  dsimp only
  split
  · rfl
  · rw [hi.2]
    dsimp only
    rw [if_neg (by omega)]

/-- C118: a program compiled without traces writes only the errors that are not formatted, in a file that it opened. -/
theorem C118_quiet (can : String → Bool) (c : String → List Char) (ops : List Op) (h : ∀ op ∈ ops, NoDisk op) :
    Agrees (runQuiet can (startQuiet c) ops) (ops.foldl (Log.step shownQuiet can) ⟨c, none⟩) := by
  have key : ∀ (ops : List Op) (s : State) (l : Log), Agrees s l → s.disk = true → (∀ op ∈ ops, NoDisk op) →
      Agrees (runQuiet can s ops) (ops.foldl (Log.step shownQuiet can) l) := by
    intro ops
    induction ops with
    | nil => intro s l h _ _; exact h
    | cons op ops ih =>
      intro s l h hd ho
      have hrest := fun o hm => ho o (List.mem_cons_of_mem op hm)
      have hop := ho op (List.mem_cons_self ..)
      have hstep : Agrees (stepQuiet can s op) (Log.step shownQuiet can l op) ∧ (stepQuiet can s op).disk = true := by
        cases op with
        | openFile n =>
          exact ⟨open_agrees can n h _, (disk_step can s (.openFile n) trivial).trans hd⟩
        | closeFile => exact ⟨close_agrees can h _, (disk_step can s .closeFile trivial).trans hd⟩
        | disk b => exact absurd hop id
        | error p t => exact ⟨write_agrees h hd _, (write_flows s _).2.2.trans hd⟩
        | debug => exact ⟨agrees_nil h, hd⟩
        | debugf => exact ⟨agrees_nil h, hd⟩
        | errorf => exact ⟨agrees_nil h, hd⟩
        | errorfAlways => exact ⟨agrees_nil h, hd⟩
      exact ih _ _ hstep.1 hstep.2 hrest
  exact key ops _ _ (by unfold Agrees startQuiet; simp) rfl h

/-- C118, example: of two traces the one below the mode is written. -/
theorem C118_case :
    (run (fun _ => true) (start (fun _ => true) fun _ => ['o']) [.debugf 5 9 ['a'] ['b'], .debugf 5 3 ['c'] ['d'], .errorf 1 ['e'] ['f'],
      .closeFile, .error ['g'] ['h']]).content "/tmp/sot-core-traces.txt" = ['c', 'd', '\n'] := by
  decide

end Verif.Debug
