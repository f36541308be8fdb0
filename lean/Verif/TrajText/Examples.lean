import Verif.TrajText.Props

/-!
# Cases of the reading of a trajectory, and what is read wrongly
-/

namespace Verif.TrajText

/-- The numbers 1.5 and -0.25. -/
def oneHalf : Item := .val [] ['1'] ['5'] []
def minusQuarter : Item := .val [] "-0".toList "25".toList []

/-- `(12,(3.5,7.0),base),(hip,knee),(((1.5,-0.25),(1.5),(),()),((-0.25),(),(),()))`. -/
def sample : Written :=
  { seq := "12".toList, secs := ⟨['3'], ['5']⟩, nsecs := ⟨['7'], ['0']⟩, frame := "base".toList, names := ["hip".toList, "knee".toList],
    points := [⟨[oneHalf, minusQuarter], [oneHalf], [], []⟩, ⟨[minusQuarter], [], [], []⟩] }

theorem oneHalf_ok : oneHalf.Ok := by simp [oneHalf, Item.Ok, Plain]; decide
theorem minusQuarter_ok : minusQuarter.Ok := by simp [minusQuarter, Item.Ok, Plain]; decide

theorem sample_ok : sample.Ok where
  seq := by decide
  secs := by unfold Decimal.Ok; decide
  nsecs := by unfold Decimal.Ok; decide
  frame := by decide
  names := by decide
  points := by
    intro p hp
    simp only [sample, List.mem_cons, List.not_mem_nil, or_false] at hp
    rcases hp with rfl | rfl <;> simp [Point.All, oneHalf_ok, minusQuarter_ok]

/-- The text of the sample. -/
theorem sample_text : sample.text = "(12,(3.5,7.0),base),(hip,knee),(((1.5,-0.25),(1.5),(),()),((-0.25),(),(),()))".toList := by decide

/-- The reading of the sample, with the values kept as texts. -/
theorem sample_read : parse id "(12,(3.5,7.0),base),(hip,knee),(((1.5,-0.25),(1.5),(),()),((-0.25),(),(),()))".toList {} =
    .done { seq := 12, frame := "base".toList, names := ["hip".toList, "knee".toList],
            points := [⟨["1.5".toList, "-0.25".toList], ["1.5".toList], [], []⟩, ⟨["-0.25".toList], [], [], []⟩] } := by
  have h := C98_read id {} sample_ok (lead := []) (tail := []) (by simp) (by simp)
  simp only [List.nil_append, List.append_nil] at h
  rw [← sample_text, h]
  decide

/-- **C98.** The written time stamp is not read: there is a written trajectory whose stamp has seconds, and the seconds of the result are
zero. -/
theorem C98_stamp_counterexample : ∃ w : Written, w.Ok ∧ w.secs.text = "3.5".toList ∧
    ∃ t', parse id w.text {} = .done t' ∧ t'.secs = 0 := by
  refine ⟨sample, sample_ok, by decide, ?_⟩
  rw [sample_text]
  exact ⟨_, sample_read, rfl⟩

/-- **C98.** Values written without decimal point are lost and exponents are cut off: of the sequence `1,2.5,3e2,4.0e-3` the values read
are `2.5` and `4.0`. -/
theorem C98_dropped_counterexample (s : List Char) :
    parseSeq id ("1,2.5,3e2,4.0e-3".toList ++ ')' :: s) [] = .done (["2.5".toList, "4.0".toList], s) := by
  have h := parseSeq_items (rd := id) (l := [.skip ['1'], .val [] ['2'] ['5'] [], .skip "3e2".toList, .val [] ['4'] ['0'] "e-3".toList])
    (by
      intro i hi
      simp only [List.mem_cons, List.not_mem_nil, or_false] at hi
      rcases hi with rfl | rfl | rfl | rfl <;> simp [Item.Ok, Plain] <;> decide) s []
  exact h

/-- The names after a reading are those that the loop on the names gives. -/
theorem parse_names {V : Type} (rd : List Char → V) {text rest : List Char} {n : List (List Char)} {t : Trajectory V}
    (h : parseNames (parseHeader text t).2 t.names = .done (n, rest)) :
    ∃ t', parse rd text t = .done t' ∧ t'.names = n ∧ t'.seq = (parseHeader text t).1.seq := by
  have hn : (parseHeader text t).1.names = t.names := by
    rw [parseHeader]
    cases search headerRe text <;> rfl
  rw [parse]
  simp only [hn, h, Run.bind]
  rw [parsePoints]
  cases h2 : search commaOpenRe rest with
  | none => exact ⟨_, rfl, rfl, rfl⟩
  | some x =>
    obtain ⟨more, e⟩ := pointsLoop_done rd x.1 (parseHeader text t).1.points
    simp only [e]
    exact ⟨_, rfl, rfl, rfl⟩

theorem parseNames_comma {s rest n : List Char} (h : (search namesRe s).map (fun r => (r.1, r.2 1, r.2 2)) = some (rest, n, [',']))
    (acc : List (List Char)) : parseNames s acc = parseNames rest (acc ++ [n]) := by
  rw [parseNames]
  cases hs : search namesRe s with
  | none => simp [hs] at h
  | some x =>
    rw [hs] at h
    simp at h
    obtain ⟨h1, h2, h3⟩ := h
    have hlt : x.1.length < s.length := by
      obtain ⟨a, w, c, sep, e, -⟩ := search_names_sound (rest := x.1) (what := x.2) hs
      rw [e]
      simp
      omega
    simp only [h3]
    rw [if_neg (by decide), if_pos hlt, h1, h2]

theorem parseNames_close {s rest n : List Char} (h : (search namesRe s).map (fun r => (r.1, r.2 1, r.2 2)) = some (rest, n, [')']))
    (acc : List (List Char)) : parseNames s acc = .done (acc ++ [n], rest) := by
  rw [parseNames]
  cases hs : search namesRe s with
  | none => simp [hs] at h
  | some x =>
    rw [hs] at h
    simp at h
    obtain ⟨h1, h2, h3⟩ := h
    simp [h1, h2, h3]

theorem header_rest {V : Type} {text rest : List Char} (h : (search headerRe text).map (fun r => r.1) = some rest) (t : Trajectory V) :
    (parseHeader text t).2 = rest := by
  rw [parseHeader]
  cases hs : search headerRe text with
  | none => simp [hs] at h
  | some x => simpa [hs] using h

/-- **C99.** Without joint names the first numbers are taken for names: of the text `(0,(0.0,0.0),f),(),(((1.0,2.0),(),(),()))` the names
read are `0` and `0`. -/
theorem C99_no_names_counterexample : ∃ t', parse id "(0,(0.0,0.0),f),(),(((1.0,2.0),(),(),()))".toList {} = .done t' ∧
    t'.names = ["0".toList, "0".toList] := by
  have h1 : (parseHeader (V := List Char) "(0,(0.0,0.0),f),(),(((1.0,2.0),(),(),()))".toList {}).2 = "),(((1.0,2.0),(),(),()))".toList :=
    header_rest (by decide) _
  have h2 := parseNames_comma (s := "),(((1.0,2.0),(),(),()))".toList) (rest := "2.0),(),(),()))".toList) (n := ['0']) (by decide) []
  have h3 := parseNames_close (s := "2.0),(),(),()))".toList) (rest := ",(),(),()))".toList) (n := ['0']) (by decide) [['0']]
  obtain ⟨t', e, hn, -⟩ := parse_names id (t := {}) (text := "(0,(0.0,0.0),f),(),(((1.0,2.0),(),(),()))".toList)
    (by rw [h1]; exact h2.trans h3)
  exact ⟨t', e, hn⟩

/-- **C99.** A header whose stamp is written without decimal point is not recognised, and its numbers are taken for names. -/
theorem C99_header_counterexample : ∃ t', parse id "(5,(0,0),f),(a,b),()".toList {} = .done t' ∧ t'.seq = 0 ∧
    t'.names = ["5".toList, "0".toList, "0".toList] := by
  have h0 : (search headerRe "(5,(0,0),f),(a,b),()".toList).isNone = true := by decide
  have h1 : parseHeader (V := List Char) "(5,(0,0),f),(a,b),()".toList {} = ({}, "(5,(0,0),f),(a,b),()".toList) := by
    rw [parseHeader, Option.isNone_iff_eq_none.1 h0]
  have h2 := parseNames_comma (s := "(5,(0,0),f),(a,b),()".toList) (rest := "(0,0),f),(a,b),()".toList) (n := ['5']) (by decide) []
  have h3 := parseNames_comma (s := "(0,0),f),(a,b),()".toList) (rest := "0),f),(a,b),()".toList) (n := ['0']) (by decide) [['5']]
  have h4 := parseNames_close (s := "0),f),(a,b),()".toList) (rest := ",f),(a,b),()".toList) (n := ['0']) (by decide) [['5'], ['0']]
  obtain ⟨t', e, hn, hs⟩ := parse_names id (t := {}) (text := "(5,(0,0),f),(a,b),()".toList)
    (by rw [h1]; exact h2.trans (h3.trans h4))
  exact ⟨t', e, by rw [hs, h1], hn⟩

/-- **C99.** A trajectory without names and points hangs the command. -/
theorem C99_no_names_hangs (t : Trajectory (List Char)) : parse id "(0,(0.0,0.0),f),(),()".toList t = .diverge := by
  have h1 := header_rest (V := List Char) (text := "(0,(0.0,0.0),f),(),()".toList) (rest := "),()".toList) (by decide) t
  have h2 : (search namesRe "),()".toList).isNone = true := by decide
  rw [parse]
  simp only [h1]
  rw [parseNames, Option.isNone_iff_eq_none.1 h2]
  rfl

end Verif.TrajText
