import Verif.Reader.Spec
import Verif.Flags.Lemmas

/-!
# Property C41: the trace reader replays rows in order
-/

set_option linter.unusedSimpArgs false

namespace Verif.Reader

variable {F : Type}

/-! ## Loading -/

theorem takeWhile_not_mem (text : List Char) : '\n' ∉ text.takeWhile (· ≠ '\n') := by
  induction text with
  | nil => simp
  | cons c cs ih =>
    rw [List.takeWhile_cons]
    split
    · rename_i hc
      simp only [List.mem_cons, not_or]
      exact ⟨fun h => by simp [← h] at hc, ih⟩
    · simp

theorem split_at_newline (text : List Char) :
    (text.dropWhile (· ≠ '\n') = [] ∧ text.splitOn '\n' = [text.takeWhile (· ≠ '\n')]) ∨
    (∃ rest, text.dropWhile (· ≠ '\n') = '\n' :: rest ∧
      text.splitOn '\n' = text.takeWhile (· ≠ '\n') :: rest.splitOn '\n') := by
  have happ : text.takeWhile (· ≠ '\n') ++ text.dropWhile (· ≠ '\n') = text := List.takeWhile_append_dropWhile
  have hmem := takeWhile_not_mem text
  cases h : text.dropWhile (· ≠ '\n') with
  | nil =>
    left
    rw [h, List.append_nil] at happ
    refine ⟨rfl, ?_⟩
    have h2 := List.splitOn_eq_singleton hmem
    rw [happ] at h2
    rw [h2, happ]
  | cons c rest =>
    right
    have hc : c = '\n' := by
      have := List.head_dropWhile_not (p := fun x : Char => decide (x ≠ '\n')) (l := text) (by rw [h]; simp)
      simp only [h, List.head_cons] at this
      simpa using this
    subst hc
    refine ⟨rest, rfl, ?_⟩
    rw [h] at happ
    have h2 := List.splitOn_append_cons_self_of_not_mem (as := rest) hmem
    rw [happ] at h2
    exact h2

theorem loadLoop_short (parse : List Char → List F) (text : List Char)
    (h : Spec.ShortLines (some text)) : loadLoop parse text = Spec.rowsOf parse text := by
  have key : ∀ n, ∀ text : List Char, text.length = n → Spec.ShortLines (some text) →
      loadLoop parse text = Spec.rowsOf parse text := by
    intro n
    induction n using Nat.strongRecOn with
    | _ n ih =>
      intro text hn h
      have hpush : ∀ row : List F, (if row.length > 0 then [row] else []) =
          [row].filter (fun r => !r.isEmpty) := by
        intro row; cases row <;> simp
      rcases split_at_newline text with ⟨hd, hs⟩ | ⟨rest, hd, hs⟩
      · have hl : (text.takeWhile (· ≠ '\n')).length ≤ 1023 := h _ (by rw [hs]; simp)
        rw [loadLoop]
        rw [if_neg (by simp only [lineMax]; omega)]
        have ht : (text.takeWhile (· ≠ '\n')).take lineMax = text.takeWhile (· ≠ '\n') :=
          List.take_of_length_le hl
        rw [ht, hpush]
        split
        · rw [Spec.rowsOf, hs]; rfl
        · rename_i h'; rw [hd] at h'; exact absurd h' (by simp)
      · have hl : (text.takeWhile (· ≠ '\n')).length ≤ 1023 := h _ (by rw [hs]; simp)
        have hlen : rest.length < text.length := by
          have h1 := congrArg List.length hd
          have h2 : (text.dropWhile (· ≠ '\n')).length ≤ text.length := (List.dropWhile_sublist _).length_le
          simp only [List.length_cons] at h1
          omega
        have hrest : Spec.ShortLines (some rest) := by
          intro l hl'
          exact h l (by rw [hs]; exact List.mem_cons_of_mem _ hl')
        have ihr := ih rest.length (by omega) rest rfl hrest
        rw [loadLoop]
        rw [if_neg (by simp only [lineMax]; omega)]
        have ht : (text.takeWhile (· ≠ '\n')).take lineMax = text.takeWhile (· ≠ '\n') :=
          List.take_of_length_le hl
        rw [ht, hpush]
        split
        · rename_i h'; rw [hd] at h'; exact absurd h' (by simp)
        · rename_i c rest' h'
          rw [hd] at h'
          simp only [List.cons.injEq] at h'
          obtain ⟨rfl, rfl⟩ := h'
          show _ ++ loadLoop parse rest = _
          rw [ihr]
          rw [Spec.rowsOf, Spec.rowsOf, hs]
          rw [List.map_cons, List.filter_cons]
          cases parse (text.takeWhile (· ≠ '\n')) <;> simp
  exact key _ text rfl h

/-! ## Selection -/

theorem selectLoop_eq (sel : Flags.Flags) (pre row : List F) :
    selectLoop sel pre.length row =
      .ok ((List.range' pre.length row.length).filterMap fun i : Nat =>
        if Flags.call sel i = .ok true then (pre ++ row)[i]? else none) := by
  induction row generalizing pre with
  | nil => rfl
  | cons x xs ih =>
    have := ih (pre ++ [x])
    simp only [List.length_append, List.length_cons, List.length_nil, Nat.zero_add,
      List.append_assoc, List.cons_append, List.nil_append] at this
    rw [selectLoop, Flags.call_natCast, Outcome.bind_ok, this, Outcome.map_ok]
    rw [List.length_cons, List.range'_succ, List.filterMap_cons, Flags.call_natCast]
    cases Flags.val sel pre.length <;> simp

theorem selectLoop_selected (sel : Flags.Flags) (row : List F) :
    selectLoop sel 0 row = .ok (Spec.selected sel row) := by
  have := selectLoop_eq sel [] row
  simpa [Spec.selected, List.range_eq_range'] using this

/-! ## Replay -/

/-- The rows still to be read. -/
def todo (s : State F) : Option (List (List F)) :=
  if s.iteratorSet then s.cur.map fun i => s.dataSet.drop (i + 1) else some s.dataSet

/-- The iterator, when set, designates a row. -/
def Valid (s : State F) : Prop := s.iteratorSet = true → ∀ i, s.cur = some i → i < s.dataSet.length

/-- Link between the reader and the specification. -/
def Rel (s : State F) (q : Spec.Queue F) : Prop := Valid s ∧ q.all = s.dataSet ∧ q.todo = todo s

theorem rel_load {parse : List Char → List F} {s : State F} {q : Spec.Queue F} (f : Option (List Char))
    (hf : Spec.ShortLines f) (h : Rel s q) :
    Rel (load parse s f) (Spec.step parse q (.load f)).1 := by
  cases f with
  | none => exact h
  | some text =>
    obtain ⟨hv, ha, ht⟩ := h
    have hl := loadLoop_short parse text hf
    refine ⟨?_, ?_, ?_⟩
    · intro hi i hc
      have := hv hi i hc
      simp only [load, List.length_append]
      omega
    · simp only [Spec.step, load, ha, hl]
    · simp only [Spec.step, load, ht, hl, todo]
      by_cases hi : s.iteratorSet = true
      · simp only [hi, if_true]
        cases hc : s.cur with
        | none => rfl
        | some i =>
          have := hv hi i hc
          simp only [Option.map_some, Option.some.injEq]
          rw [List.drop_append_of_le_length (by omega)]
      · simp only [hi]; rfl

theorem rel_read {parse : List Char → List F} {s : State F} {q : Spec.Queue F} (sel : Flags.Flags)
    (buf : List F) (h : Rel s q) :
    ∃ s', getNextData s sel buf =
        .ok ((((Spec.step parse q (.read sel)).2.map (Spec.selected sel)).getD buf), s') ∧
      Rel s' (Spec.step parse q (.read sel)).1 := by
  obtain ⟨hv, ha, ht⟩ := h
  by_cases hi : s.iteratorSet = true
  · cases hc : s.cur with
    | none =>
      refine ⟨s, ?_, ?_⟩
      · simp only [getNextData, hi, not_true, if_false, hc]
        simp only [Spec.step, ht, todo, hi, hc]
        rfl
      · simp only [Spec.step, ht, todo, hi, hc]
        exact ⟨hv, ha, by simp [todo, hi, hc]⟩
    | some i =>
      have hlt := hv hi i hc
      by_cases hn : i + 1 < s.dataSet.length
      · have hd : s.dataSet.drop (i + 1) = s.dataSet[i + 1] :: s.dataSet.drop (i + 1 + 1) :=
          List.drop_eq_getElem_cons hn
        refine ⟨{ s with cur := some (i + 1) }, ?_, ?_⟩
        · simp only [getNextData, hi, not_true, if_false, hc, next, if_pos hn]
          rw [rd_of_lt _ _ hn, Outcome.bind_ok, selectLoop_selected, Outcome.map_ok]
          simp only [Spec.step, ht, todo, hi, hc, if_true, Option.map_some]
          rw [hd]
          rfl
        · simp only [Spec.step, ht, todo, hi, hc, if_true, Option.map_some]
          rw [hd]
          refine ⟨?_, ha, by simp [todo, hi]⟩
          intro _ j hj
          simp only [Option.some.injEq] at hj
          subst hj; exact hn
      · have hd : s.dataSet.drop (i + 1) = [] := List.drop_eq_nil_of_le (by omega)
        refine ⟨{ s with cur := none }, ?_, ?_⟩
        · simp only [getNextData, hi, not_true, if_false, hc, next, if_neg hn]
          simp only [Spec.step, ht, todo, hi, hc, if_true, Option.map_some]
          rw [hd]
          rfl
        · simp only [Spec.step, ht, todo, hi, hc, if_true, Option.map_some]
          rw [hd]
          refine ⟨?_, ha, by simp [todo, hi]⟩
          intro _ j hj
          simp at hj
  · have hi' : s.iteratorSet = false := by simpa using hi
    cases hd : s.dataSet with
    | nil =>
      refine ⟨{ s with cur := none, iteratorSet := true }, ?_, ?_⟩
      · simp only [getNextData, hi', begin, hd, Bool.false_eq_true, not_false_eq_true, if_true, List.length_nil]
        simp only [Spec.step, ht, todo, hi', hd, Bool.false_eq_true, if_false]
        rfl
      · simp only [Spec.step, ht, todo, hi', hd, Bool.false_eq_true, if_false]
        refine ⟨?_, by simpa [hd] using ha, by simp [todo]⟩
        intro _ j hj
        simp at hj
    | cons r rs =>
      refine ⟨{ s with cur := some 0, iteratorSet := true }, ?_, ?_⟩
      · simp only [getNextData, hi', begin, hd, Bool.false_eq_true, not_false_eq_true, if_true, List.length_cons,
          Nat.add_eq_zero_iff, Nat.succ_ne_zero, and_false, if_false]
        rw [rd_of_lt _ _ (by simp), Outcome.bind_ok, selectLoop_selected, Outcome.map_ok]
        simp only [Spec.step, ht, todo, hi', hd, Bool.false_eq_true, if_false]
        simp [hd]
      · simp only [Spec.step, ht, todo, hi', hd, Bool.false_eq_true, if_false]
        refine ⟨?_, by simpa [hd] using ha, by simp [todo, hd]⟩
        intro _ j hj
        simp only [Option.some.injEq] at hj
        subst hj
        simp [hd]

theorem run_spec (parse : List Char → List F) (os : List Op) (hos : Spec.ShortLoads os) (s : State F)
    (q : Spec.Queue F) (buf : List F) (h : Rel s q) :
    run parse s buf os = .ok (Spec.run parse q buf os) := by
  induction os generalizing s q buf with
  | nil => rfl
  | cons o os ih =>
    have hos' : Spec.ShortLoads os := fun f hf => hos f (List.mem_cons_of_mem _ hf)
    cases o with
    | load f =>
      rw [run, step, Outcome.bind_ok, ih hos' _ _ _ (rel_load (parse := parse) f (hos f (by simp)) h)]
      rfl
    | clear =>
      rw [run, step, Outcome.bind_ok, ih hos' (clear s) ⟨[], some []⟩ buf
        ⟨fun hi => absurd hi (by simp [clear]), rfl, by simp [todo, clear]⟩]
      rfl
    | rewind =>
      rw [run, step, Outcome.bind_ok, ih hos' (rewind s) ⟨q.all, some q.all⟩ buf
        ⟨fun hi => absurd hi (by simp [rewind]), h.2.1, by simp [todo, rewind, h.2.1]⟩]
      rfl
    | resize r c =>
      rw [run, step, Outcome.bind_ok, ih hos' (resize s r c) q buf h]
      rfl
    | read sel =>
      obtain ⟨s', he, hr⟩ := rel_read (parse := parse) sel buf h
      rw [run, step, he, Outcome.map_ok, Outcome.bind_ok, ih hos' _ _ _ hr]
      rfl

/-! ## C41 -/

/-- C41. Along every history of commands and evaluations of a new reader, the evaluations deliver the selected entries of
the loaded rows, in order, one row per evaluation, restarting at each rewind; an evaluation that finds no row left leaves
the result buffer as it is. Every read is in range. Files have lines of at most 1023 characters, see
`C41_long_line_counterexample`; the buffer is the same at every evaluation, see `C41_two_buffers_counterexample`. -/
theorem C41_replay_partial (parse : List Char → List F) (os : List Op) (buf : List F) (hos : Spec.ShortLoads os) :
    run parse State.new buf os = .ok (Spec.run parse ⟨[], some []⟩ buf os) :=
  run_spec parse os hos State.new ⟨[], some []⟩ buf
    ⟨fun h => absurd h (by simp [State.new]), rfl, by simp [todo, State.new]⟩

theorem spec_reads (parse : List Char → List F) (all rows : List (List F)) (buf : List F) (sels : List Flags.Flags)
    (k : Nat) (hk : k < sels.length) (hr : k < rows.length) :
    (Spec.run parse ⟨all, some rows⟩ buf (sels.map .read))[k]? = some (Spec.selected sels[k] rows[k]) := by
  induction sels generalizing rows buf k with
  | nil => simp at hk
  | cons sel sels ih =>
    cases rows with
    | nil => simp at hr
    | cons r rs =>
      simp only [List.map_cons, Spec.run, Spec.step, Option.map_some, Option.getD_some]
      cases k with
      | zero => simp
      | succ k =>
        rw [List.getElem?_cons_succ, ih rs _ k (by simpa using hk) (by simpa using hr)]
        simp

theorem spec_reads_none (parse : List Char → List F) (all : List (List F)) (buf : List F) (sels : List Flags.Flags)
    (k : Nat) (hk : k < sels.length) :
    (Spec.run parse ⟨all, none⟩ buf (sels.map .read))[k]? = some buf := by
  induction sels generalizing k with
  | nil => simp at hk
  | cons sel sels ih =>
    simp only [List.map_cons, Spec.run, Spec.step, Option.map_none, Option.getD_none]
    cases k with
    | zero => simp
    | succ k => rw [List.getElem?_cons_succ, ih k (by simpa using hk)]

theorem spec_reads_after (parse : List Char → List F) (all rows : List (List F)) (buf : List F)
    (sels : List Flags.Flags) (k : Nat) (hk : k < sels.length) (hr : rows.length ≤ k) (hne : 0 < rows.length) :
    (Spec.run parse ⟨all, some rows⟩ buf (sels.map .read))[k]? =
      some (Spec.selected (sels[rows.length - 1]'(by omega)) (rows[rows.length - 1]'(by omega))) := by
  induction sels generalizing rows buf k with
  | nil => simp at hk
  | cons sel sels ih =>
    cases rows with
    | nil => simp at hne
    | cons r rs =>
      simp only [List.map_cons, Spec.run, Spec.step, Option.map_some, Option.getD_some]
      cases k with
      | zero => simp at hr
      | succ k =>
        rw [List.getElem?_cons_succ]
        by_cases hrs : 0 < rs.length
        · rw [ih rs _ k (by simpa using hk) (by simpa using hr) hrs]
          congr 2
          · simp only [List.length_cons, Nat.add_sub_cancel]
            rw [List.getElem_cons]
            split
            · omega
            · rfl
          · simp only [List.length_cons, Nat.add_sub_cancel]
            rw [List.getElem_cons]
            split
            · omega
            · rfl
        · have hnil : rs = [] := List.eq_nil_of_length_eq_zero (by omega)
          subst hnil
          cases sels with
          | nil => simp at hk
          | cons sel' sels' =>
            simp only [List.map_cons, Spec.run, Spec.step, Option.map_none, Option.getD_none]
            cases k with
            | zero => simp
            | succ k =>
              rw [List.getElem?_cons_succ, spec_reads_none parse all _ sels' k (by simpa using hk)]
              simp

/-- C41 (the usual session). After loading a text and with any selections, the evaluation of rank `k` returns the
selected entries of the row of rank `k` of the text; after the last row (and with one result buffer) the last result
is returned again. The same holds from any state after a rewind: `C41_rewind_partial`. -/
theorem C41_load_then_read_partial (parse : List Char → List F) (text : List Char) (buf : List F)
    (sels : List Flags.Flags) (ht : Spec.ShortLines (some text)) :
    ∃ outs, run parse State.new buf (.load (some text) :: sels.map .read) = .ok outs ∧
      (∀ k (hk : k < sels.length) (hr : k < (Spec.rowsOf parse text).length),
        outs[k]? = some (Spec.selected sels[k] (Spec.rowsOf parse text)[k])) ∧
      (∀ k, k < sels.length → (Spec.rowsOf parse text).length ≤ k → 0 < (Spec.rowsOf parse text).length →
        outs[k]? = outs[(Spec.rowsOf parse text).length - 1]?) := by
  refine ⟨_, C41_replay_partial parse _ buf ?_, ?_, ?_⟩
  · intro f hf
    simp only [List.mem_cons, List.mem_map] at hf
    rcases hf with h | ⟨x, -, h⟩
    · simp only [Op.load.injEq] at h; subst h; exact ht
    · cases h
  · intro k hk hr
    simp only [Spec.run, Spec.step, List.nil_append, Option.map_some]
    exact spec_reads parse _ _ buf sels k hk hr
  · intro k hk hr hne
    simp only [Spec.run, Spec.step, List.nil_append, Option.map_some]
    rw [spec_reads_after parse _ _ buf sels k hk hr hne,
      spec_reads parse _ _ buf sels ((Spec.rowsOf parse text).length - 1) (by omega) (by omega)]

/-- C41 (rewind). Whatever was loaded and read before, a rewind restarts at the first of the rows held. -/
theorem C41_rewind_partial (parse : List Char → List F) (s : State F) (buf : List F) (sels : List Flags.Flags) :
    ∃ outs, run parse s buf (.rewind :: sels.map .read) = .ok outs ∧
      ∀ k (hk : k < sels.length) (hr : k < s.dataSet.length),
        outs[k]? = some (Spec.selected sels[k] s.dataSet[k]) := by
  have hrel : Rel (rewind s) ⟨s.dataSet, some s.dataSet⟩ :=
    ⟨fun hi => absurd hi (by simp [rewind]), rfl, by simp [todo, rewind]⟩
  refine ⟨_, by
    rw [run, step, Outcome.bind_ok, run_spec parse (sels.map .read) (fun f hf => by
      simp only [List.mem_map] at hf
      obtain ⟨x, -, h⟩ := hf
      cases h) _ _ buf hrel]
    rfl, ?_⟩
  intro k hk hr
  exact spec_reads parse _ _ buf sels k hk hr

/-- C41 (matrix form). When the vector has at least `rows * cols` entries, the matrix has the entry of index
`i * cols + j` in row `i` and column `j`, and nothing is read out of range; when it is shorter, the result keeps its
previous content. -/
theorem C41_matrix_row_major (s : State F) (vect : List F) (res : List (List F)) (hr : 0 ≤ s.rows) (hc : 0 ≤ s.cols) :
    ((vect.length : Int) < s.rows * s.cols → getNextMatrix s vect res = .ok res) ∧
    (s.rows * s.cols ≤ (vect.length : Int) →
      ∃ m, getNextMatrix s vect res = .ok m ∧ m.length = s.rows.toNat ∧
        ∀ i row, m[i]? = some row → row.length = s.cols.toNat ∧
          ∀ j x, row[j]? = some x → vect[i * s.cols.toNat + j]? = some x) := by
  obtain ⟨r, hr'⟩ := Int.eq_ofNat_of_zero_le hr
  obtain ⟨c, hc'⟩ := Int.eq_ofNat_of_zero_le hc
  refine ⟨fun h => by simp [getNextMatrix, h], fun h => ?_⟩
  have hin : ∀ i j, i < r → j < c → i * c + j < vect.length := by
    intro i j hi hj
    have h1 : r * c ≤ vect.length := by
      rw [hr', hc'] at h
      exact_mod_cast h
    calc i * c + j < i * c + c := by omega
      _ = (i + 1) * c := by rw [Nat.add_mul, Nat.one_mul]
      _ ≤ r * c := Nat.mul_le_mul_right c hi
      _ ≤ _ := h1
  have hrow : ∀ i, i < r → ∃ row : List F, (tab c fun j => rd vect (i * c + j)) = .ok row :=
    fun i hi => tab_total fun j hj => ⟨_, rd_of_lt _ _ (hin i j hi hj)⟩
  obtain ⟨m, hm⟩ := tab_total hrow
  have he : getNextMatrix s vect res = .ok m := by
    simp only [getNextMatrix, if_neg (Int.not_lt.mpr h), if_neg (not_or.mpr ⟨Int.not_lt.mpr hr, Int.not_lt.mpr hc⟩)]
    rw [hr', hc']
    exact hm
  refine ⟨m, he, ?_⟩
  rw [hr', hc']
  simp only [Int.toNat_natCast]
  obtain ⟨hl, hm'⟩ := tab_eq_ok.mp hm
  refine ⟨hl, fun i row hi => ?_⟩
  obtain ⟨hi1, rfl⟩ := List.getElem?_eq_some_iff.mp hi
  obtain ⟨hl2, hrow'⟩ := tab_eq_ok.mp (hm' i hi1)
  refine ⟨hl2, fun j x hj => ?_⟩
  obtain ⟨hj1, rfl⟩ := List.getElem?_eq_some_iff.mp hj
  exact rd_eq_ok.mp (hrow' j hj1)

/-- C41, disagreement. Through a signal, which alternates two result buffers, the evaluation after the last row returns
the row before the last, then the last again, and so on: the last row is not kept. -/
theorem C41_two_buffers_counterexample :
    runSignal (fun l : List Char => l.map Char.toNat) State.new [] []
      (.load (some "a\nb".toList) :: List.replicate 5 (.read (Flags.ofBool true))) =
      .ok [[97], [98], [97], [98], [97]] := by decide +kernel

/-- C41, disagreement. A line longer than 1023 characters ends the loading: the rows after it are lost, silently. -/
theorem C41_long_line_counterexample :
    (load (fun l : List Char => l.map Char.toNat) State.new
      (some (List.replicate 1024 'x' ++ "\nb".toList))).dataSet = [List.replicate 1023 120] := by decide +kernel

/-- C41, disagreement with an unconditional reading of the resize command: negative dimensions are not rejected. -/
theorem C41_negative_resize_ub (s : State F) (vect : List F) (res : List (List F)) :
    getNextMatrix (resize s (-1) 1) vect res = .ub := by
  have h1 : ¬ ((vect.length : Int) < -1) := by omega
  simp [getNextMatrix, resize, h1]

/-- A concrete session: rows loaded in two times, a selection, a rewind, an evaluation too many. -/
example : run (fun l : List Char => l.map Char.toNat) State.new [7]
      [.load (some "ab\n\ncd".toList), .read (Flags.ofBool true), .load (some "ef\n".toList),
       .read (Flags.ofVector [false, true]), .read (Flags.ofBool true), .rewind, .read (Flags.ofBool true),
       .clear, .read (Flags.ofBool true)] =
      .ok [[97, 98], [100], [101, 102], [97, 98], [97, 98]] ∧
    Spec.ShortLines (some "ab\n\ncd".toList) ∧
    getNextMatrix (resize State.new 2 2) [1, 2, 3, 4, 5] [] = .ok [[1, 2], [3, 4]] := by
  refine ⟨by decide +kernel, ?_, by decide +kernel⟩
  show ∀ l ∈ "ab\n\ncd".toList.splitOn '\n', l.length ≤ 1023
  rw [List.splitOn_eq_splitOnP]
  decide +kernel

end Verif.Reader
