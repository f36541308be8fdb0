import Verif.TrajText.Lemmas

/-!
# Properties of the reading of a trajectory (C98, C99)
-/

namespace Verif.TrajText

variable {V : Type}

/-! ### The texts -/

/-- The characters of the digits and the sign before the point of a number. -/
def numberChar (c : Char) : Bool := c == '-' || c.isDigit

/-- The characters of a name. -/
def wordChar (c : Char) : Bool := c.isAlphanum || c == '_'

/-- What is written between two separators of a sequence: a text without point, comma and closing parenthesis, or a number with digits
around a point, with such texts before and after it. -/
inductive Item where
  | skip (w : List Char)
  | val (pre a b suf : List Char)

/-- A text without point, comma and closing parenthesis. -/
def Plain (w : List Char) : Prop := ∀ c ∈ w, c ≠ '.' ∧ c ≠ ',' ∧ c ≠ ')'

/-- The conditions on an item: the text before a number does not end, and the text after it does not begin, with a character that could
belong to it. -/
def Item.Ok : Item → Prop
  | .skip w => Plain w
  | .val pre a b suf =>
    Plain pre ∧ (∀ c, pre.getLast? = some c → numberChar c = false) ∧ (∀ d ∈ a, numberChar d = true) ∧ a ≠ [] ∧
      (∀ d ∈ b, d.isDigit = true) ∧ Plain suf ∧ ∀ c, suf.head? = some c → c.isDigit = false

/-- The text of an item. -/
def Item.text : Item → List Char
  | .skip w => w
  | .val pre a b suf => pre ++ a ++ '.' :: (b ++ suf)

/-- The text of the number of an item. -/
def Item.number : Item → Option (List Char)
  | .skip _ => none
  | .val _ a b _ => some (a ++ '.' :: b)

/-- Texts separated by commas. -/
def commas : List (List Char) → List Char
  | [] => []
  | [w] => w
  | w :: v :: l => w ++ ',' :: commas (v :: l)

/-- A list in parentheses. -/
def paren (s : List Char) : List Char := '(' :: (s ++ [')'])

/-- A sequence of items in parentheses. -/
def seqText (l : List Item) : List Char := paren (commas (l.map Item.text))

/-- The four sequences of a point in parentheses. -/
def pointText (p : Point Item) : List Char :=
  paren (commas [seqText p.positions, seqText p.velocities, seqText p.accelerations, seqText p.efforts])

/-- A number written with digits around a point. -/
structure Decimal where
  int : List Char
  frac : List Char

def Decimal.Ok (d : Decimal) : Prop := (∀ c ∈ d.int, numberChar c = true) ∧ d.int ≠ [] ∧ ∀ c ∈ d.frac, c.isDigit = true

def Decimal.text (d : Decimal) : List Char := d.int ++ '.' :: d.frac

/-- A trajectory as it is written. -/
structure Written where
  seq : List Char
  secs : Decimal
  nsecs : Decimal
  frame : List Char
  names : List (List Char)
  points : List (Point Item)

def Point.All (P : Item → Prop) (p : Point Item) : Prop :=
  (∀ i ∈ p.positions, P i) ∧ (∀ i ∈ p.velocities, P i) ∧ (∀ i ∈ p.accelerations, P i) ∧ ∀ i ∈ p.efforts, P i

structure Written.Ok (w : Written) : Prop where
  seq : (∀ c ∈ w.seq, c.isDigit = true) ∧ w.seq ≠ []
  secs : w.secs.Ok
  nsecs : w.nsecs.Ok
  frame : ∀ c ∈ w.frame, wordChar c = true
  names : w.names ≠ [] ∧ ∀ n ∈ w.names, n ≠ [] ∧ ∀ c ∈ n, wordChar c = true
  points : ∀ p ∈ w.points, p.All Item.Ok

/-- `(seq,(secs,nsecs),frame),(name,...),(point,...)`. -/
def Written.text (w : Written) : List Char :=
  commas [paren (commas [w.seq, paren (commas [w.secs.text, w.nsecs.text]), w.frame]), paren (commas w.names),
    paren (commas (w.points.map pointText))]

/-- The point of the numbers of a written point. -/
def Point.read (rd : List Char → V) (p : Point Item) : Point V :=
  ⟨(p.positions.filterMap Item.number).map rd, (p.velocities.filterMap Item.number).map rd,
    (p.accelerations.filterMap Item.number).map rd, (p.efforts.filterMap Item.number).map rd⟩

/-! ### The classes -/

theorem digit_eq : digit = Char.isDigit := by
  funext c
  rfl

theorem signDigit_eq : signDigit = numberChar := by
  funext c
  rfl

theorem nameChar_eq : nameChar = wordChar := by
  funext c
  have h1 : (('a' ≤ c && c ≤ 'z') : Bool) = c.isLower := rfl
  have h2 : (('A' ≤ c && c ≤ 'Z') : Bool) = c.isUpper := by
    rw [Char.isUpper, ← Bool.decide_and]
    rfl
  rw [nameChar, wordChar, h1, h2, digit_eq, Char.isAlphanum, Char.isAlpha, Bool.or_comm c.isLower]

/-! ### A sequence -/

theorem parseSeq_step {rd : List Char → V} {s rest : List Char} {what : Caps} (h : search valuesRe s = some (rest, what)) (acc : List V) :
    parseSeq rd s acc =
      if what 2 = [')'] then .done (if what 1 = [] then acc else acc ++ [rd (what 1)], rest)
      else parseSeq rd rest (if what 1 = [] then acc else acc ++ [rd (what 1)]) := by
  rw [parseSeq, h]
  simp [search_values_lt h]

/-- The part of a sequence up to a separator. -/
theorem parseSeq_item {rd : List Char → V} {i : Item} (hi : i.Ok) {sep : Char} (hs : sep = ',' ∨ sep = ')') (s : List Char)
    (acc : List V) : parseSeq rd (i.text ++ sep :: s) acc = parseSeq rd (sep :: s) (acc ++ i.number.toList.map rd) := by
  have hsep : sep ≠ '.' ∧ signDigit sep = false ∧ digit sep = false := by rcases hs with rfl | rfl <;> decide
  cases i with
  | skip w =>
    have h := search_values_skip hi hsep.1 hsep.2.1 s
    rw [search_values_sep hs] at h
    rw [Item.text, parseSeq_step h, parseSeq_step (search_values_sep hs _)]
    simp [Item.number]
  | val pre a b suf =>
    rw [Item.Ok, ← signDigit_eq, ← digit_eq] at hi
    obtain ⟨h1, h2, h3, h4, h5, h6, h7⟩ := hi
    have hskip : ∀ t, search valuesRe (pre ++ (a ++ '.' :: t)) = search valuesRe (a ++ '.' :: t) := by
      intro t
      rcases List.eq_nil_or_concat pre with h | ⟨u, x, h⟩
      · simp [h]
      · subst h
        have hx := h1 x (by simp)
        have hxs := h2 x (by simp)
        have hu : ∀ c ∈ u, c ≠ '.' ∧ c ≠ ',' ∧ c ≠ ')' := fun c hc => h1 c (by simp [hc])
        simp only [List.concat_eq_append, List.append_assoc, List.singleton_append]
        rw [search_values_skip hu hx.1 hxs, search_skip]
        simp [valuesRe, Rx.run, Rx.plus, hxs, Rx.chr, hx.2.1, hx.2.2]
    have hnum : ∃ c r, suf ++ sep :: s = c :: r ∧ digit c = false := by
      cases suf with
      | nil => exact ⟨sep, s, rfl, hsep.2.2⟩
      | cons c r => exact ⟨c, r ++ sep :: s, rfl, h7 c rfl⟩
    obtain ⟨c, r, e, hc⟩ := hnum
    have h := search_values_float h3 h4 h5 hc r
    rw [← e, ← hskip] at h
    have et : Item.text (.val pre a b suf) ++ sep :: s = pre ++ (a ++ '.' :: (b ++ (suf ++ sep :: s))) := by simp [Item.text]
    have hsuf := search_values_skip h6 hsep.1 hsep.2.1 s
    rw [search_values_sep hs] at hsuf
    rw [et, parseSeq_step h, parseSeq_step (search_values_sep hs _)]
    simp only [if_true, Item.number, Option.toList, List.map_cons, List.map_nil]
    simp
    rw [parseSeq_step hsuf]
    simp

/-- A sequence of items is read up to its closing parenthesis; the numbers are appended, in order, and the other items are left out. -/
theorem parseSeq_items {rd : List Char → V} {l : List Item} (hl : ∀ i ∈ l, i.Ok) (s : List Char) (acc : List V) :
    parseSeq rd (commas (l.map Item.text) ++ ')' :: s) acc = .done (acc ++ (l.filterMap Item.number).map rd, s) := by
  have hclose : ∀ acc : List V, parseSeq rd (')' :: s) acc = .done (acc, s) := by
    intro acc
    rw [parseSeq_step (search_values_sep (.inr rfl) _)]
    simp
  have hcomma : ∀ (t : List Char) (acc : List V), parseSeq rd (',' :: t) acc = parseSeq rd t acc := by
    intro t acc
    rw [parseSeq_step (search_values_sep (.inl rfl) _)]
    simp
  induction l generalizing acc with
  | nil => simpa [commas] using hclose acc
  | cons i l ih =>
    have hnum : ∀ l' : List Item, (((i :: l').filterMap Item.number).map rd) = i.number.toList.map rd ++ (l'.filterMap Item.number).map rd := by
      intro l'
      cases h : i.number <;> simp [List.filterMap_cons, h]
    cases l with
    | nil =>
      simp only [List.map_cons, List.map_nil, commas]
      rw [parseSeq_item (hl i (by simp)) (.inr rfl), hclose, hnum]
      simp
    | cons j l =>
      simp only [List.map_cons, commas, List.append_assoc, List.cons_append]
      rw [parseSeq_item (hl i (by simp)) (.inl rfl), hcomma]
      have := ih (fun x hx => hl x (by simp [hx])) (acc ++ i.number.toList.map rd)
      simp only [List.map_cons] at this
      rw [this, hnum (j :: l)]
      simp

/-! ### The points -/

theorem parsePoint_text {rd : List Char → V} {p : Point Item} (hp : p.All Item.Ok) (s : List Char) :
    parsePoint rd (commas [seqText p.positions, seqText p.velocities, seqText p.accelerations, seqText p.efforts] ++ s) =
      .done (some (p.read rd, s)) := by
  obtain ⟨h1, h2, h3, h4⟩ := hp
  have ho : ∀ t, search openRe ('(' :: t) = some (t, fun _ => []) := fun t => search_chr (w := []) (by simp) t
  simp only [parsePoint, commas, seqText, paren, List.cons_append, List.append_assoc, List.nil_append, ho, parseSeq_items h1, Run.bind,
    search_commaOpen, parseSeq_items h2, parseSeq_items h3, parseSeq_items h4]
  rfl

theorem pointsLoop_text {rd : List Char → V} {l : List (Point Item)} (hl : ∀ p ∈ l, p.All Item.Ok) {tail : List Char} (ht : '(' ∉ tail)
    (acc : List (Point V)) :
    pointsLoop rd (commas (l.map pointText) ++ ')' :: tail) acc = .done (acc ++ l.map (Point.read rd)) := by
  have ho : ∀ t, search openRe ('(' :: t) = some (t, fun _ => []) := fun t => search_chr (w := []) (by simp) t
  have hc : ∀ t, search closeRe (')' :: t) = some (t, fun _ => []) := fun t => search_chr (w := []) (by simp) t
  have hend : ∀ (tail : List Char) (acc : List (Point V)), '(' ∉ tail → pointsLoop rd tail acc = .done acc := by
    intro tail acc h
    rw [pointsLoop, openRe, search_chr_none h]
  have hone : ∀ (p : Point Item) (sep : Char) (t : List Char) (acc : List (Point V)), p.All Item.Ok → (sep = ',' ∨ sep = ')') →
      pointsLoop rd (pointText p ++ sep :: t) acc = pointsLoop rd t (acc ++ [p.read rd]) := by
    intro p sep t acc hp hs
    have e : pointText p ++ sep :: t =
        '(' :: (commas [seqText p.positions, seqText p.velocities, seqText p.accelerations, seqText p.efforts] ++ ')' :: sep :: t) := by
      simp [pointText, paren]
    rw [e, pointsLoop]
    simp only [ho, parsePoint_text hp, hc, search_values_sep hs]
    rw [if_neg (by simp), if_pos (by simp; omega)]
  induction l generalizing acc with
  | nil => simpa [commas] using hend (')' :: tail) acc (by simp [ht])
  | cons p l ih =>
    cases l with
    | nil =>
      simp only [List.map_cons, List.map_nil, commas]
      rw [hone p _ _ _ (hl p (by simp)) (.inr rfl), hend _ _ ht]
    | cons q l =>
      simp only [List.map_cons, commas, List.append_assoc, List.cons_append]
      rw [hone p _ _ _ (hl p (by simp)) (.inl rfl)]
      have := ih (fun x hx => hl x (by simp [hx])) (acc ++ [p.read rd])
      simp only [List.map_cons] at this
      rw [this]
      simp

/-! ### The names -/

theorem parseNames_text {l : List (List Char)} (hne : l ≠ []) (hl : ∀ n ∈ l, n ≠ [] ∧ ∀ c ∈ n, nameChar c = true) (s : List Char)
    (acc : List (List Char)) : parseNames (commas l ++ ')' :: s) acc = .done (acc ++ l, s) := by
  induction l generalizing acc with
  | nil => exact absurd rfl hne
  | cons n l ih =>
    obtain ⟨hn, hc⟩ := hl n (by simp)
    cases l with
    | nil =>
      obtain ⟨k, h1, h2, h3⟩ := search_name hc hn (.inr rfl) s
      rw [commas, parseNames, h1]
      simp [h2, h3]
    | cons m l =>
      obtain ⟨k, h1, h2, h3⟩ := search_name hc hn (sep := ',') (.inl rfl) (commas (m :: l) ++ ')' :: s)
      have e : commas (n :: m :: l) ++ ')' :: s = n ++ ',' :: (commas (m :: l) ++ ')' :: s) := by simp [commas]
      rw [e, parseNames, h1]
      simp only [h2, h3]
      rw [if_neg (by decide), if_pos (by simp; omega), ih (by simp) fun x hx => hl x (by simp [hx])]
      simp

/-! ### The header -/

theorem digit_comma : digit ',' = false := by decide

theorem search_header {w : Written} (hw : w.Ok) {lead : List Char} (hlead : '(' ∉ lead) (s : List Char) :
    ∃ k, search headerRe (lead ++ paren (commas [w.seq, paren (commas [w.secs.text, w.nsecs.text]), w.frame]) ++ ',' :: '(' :: s) =
        some (s, k) ∧ k 1 = w.seq ∧ k 2 = w.secs.text ∧ k 3 = w.nsecs.text ∧ k 4 = w.frame := by
  have hfr : ∀ c ∈ w.frame, frameChar c = true := by
    intro c hc
    have := hw.frame c hc
    rw [← nameChar_eq] at this
    simp only [nameChar, frameChar, digit, Bool.or_eq_true, Bool.and_eq_true, decide_eq_true_eq] at this ⊢
    rcases this with ((h | h) | h) | h
    · exact .inl (.inl (.inl h))
    · exact .inl (.inl (.inr ⟨h.1, Nat.le_trans h.2 (by decide)⟩))
    · exact .inr h
    · exact .inl (.inr h)
  have hf : frameChar ')' = false := by decide
  refine ⟨fun i => if i = 4 then w.frame else if i = 3 then w.nsecs.text else if i = 2 then w.secs.text else if i = 1 then w.seq else [],
    ?_, by simp, by simp, by simp, by simp⟩
  have hskip : ∀ t, search headerRe (lead ++ '(' :: t) = search headerRe ('(' :: t) := by
    intro t
    induction lead with
    | nil => rfl
    | cons c lead ih =>
      have hc : c ≠ '(' := fun h => hlead (by simp [h])
      rw [List.cons_append, search_skip, ih fun h => hlead (by simp [h])]
      rw [headerRe, run_seq_chr_ne hc]
  have e : lead ++ paren (commas [w.seq, paren (commas [w.secs.text, w.nsecs.text]), w.frame]) ++ ',' :: '(' :: s =
      lead ++ '(' :: (w.seq ++ ',' :: '(' :: (w.secs.int ++ '.' :: (w.secs.frac ++ ',' :: (w.nsecs.int ++ '.' :: (w.nsecs.frac ++
        ')' :: ',' :: (w.frame ++ ')' :: ',' :: '(' :: s)))))) := by
    simp [paren, commas, Decimal.text]
  rw [e, hskip]
  apply search_head
  have hsecs := hw.secs
  have hnsecs := hw.nsecs
  rw [Decimal.Ok, ← signDigit_eq, ← digit_eq] at hsecs hnsecs
  obtain ⟨a1, a2, a3⟩ := hsecs
  obtain ⟨b1, b2, b3⟩ := hnsecs
  rw [headerRe, run_seq_chr, run_grp_plus (chr_of_class digit_comma _) hw.seq.1 hw.seq.2 digit_comma, run_seq_chr, run_seq_chr,
    run_grp_float (chr_of_class digit_comma _) a1 a2 a3 digit_comma, run_seq_chr,
    run_grp_float (chr_of_class (by decide) _) b1 b2 b3 (by decide), run_seq_chr, run_seq_chr,
    run_grp_star (chr_of_class hf _) hfr hf, run_seq_chr, run_seq_chr, run_chr]
  rfl

theorem takeWhile_all {p : Char → Bool} {w : List Char} (h : ∀ c ∈ w, p c = true) : w.takeWhile p = w := by
  induction w with
  | nil => rfl
  | cons c w ih => rw [List.takeWhile_cons_of_pos (h c (by simp)), ih fun d hd => h d (by simp [hd])]

theorem dropWhile_all {p : Char → Bool} {w : List Char} (h : ∀ c ∈ w, p c = true) : w.dropWhile p = [] := by
  induction w with
  | nil => rfl
  | cons c w ih => rw [List.dropWhile_cons_of_pos (h c (by simp)), ih fun d hd => h d (by simp [hd])]

/-! ### C98: reading what is written -/

/-- **C98.** Reading a written trajectory, with any text without opening parenthesis before and after it: the sequence number is the
written one (limited to the largest unsigned number), the frame is the written one, the names and the points are appended to the ones
that the trajectory had, in the order of the text, each sequence of a point has exactly the numbers written with a decimal point in it,
in order; the time stamp does not change. -/
theorem C98_read (rd : List Char → V) (t : Trajectory V) {w : Written} (hw : w.Ok) {lead tail : List Char} (hl : '(' ∉ lead)
    (ht : '(' ∉ tail) :
    parse rd (lead ++ w.text ++ tail) t =
      .done { seq := min maxU (decimal w.seq), secs := t.secs, nsecs := t.nsecs, frame := w.frame, names := t.names ++ w.names,
              points := t.points ++ w.points.map (Point.read rd) } := by
  have e : lead ++ w.text ++ tail = lead ++ paren (commas [w.seq, paren (commas [w.secs.text, w.nsecs.text]), w.frame]) ++
      ',' :: '(' :: (commas w.names ++ ')' :: ',' :: '(' :: (commas (w.points.map pointText) ++ ')' :: tail)) := by
    simp [Written.text, commas, paren]
  obtain ⟨k, h0, h1, h2, h3, h4⟩ := search_header hw hl (commas w.names ++ ')' :: ',' :: '(' :: (commas (w.points.map pointText) ++ ')' :: tail))
  have hall : w.seq.takeWhile digit = w.seq := by
    exact takeWhile_all hw.seq.1
  have hnone : w.seq.dropWhile digit = [] := by
    exact dropWhile_all hw.seq.1
  have hh : parseHeader (lead ++ w.text ++ tail) t =
      ({ t with seq := min maxU (decimal w.seq), frame := w.frame },
        commas w.names ++ ')' :: ',' :: '(' :: (commas (w.points.map pointText) ++ ')' :: tail)) := by
    rw [parseHeader, e, h0]
    have hne : w.seq.isEmpty = false := by
      cases hs : w.seq with
      | nil => exact absurd hs hw.seq.2
      | cons => rfl
    simp [h1, h2, h3, h4, IStr.str, IStr.unsigned, hall, hnone, hne, hw.seq.2]
  have hnames := hw.names.2
  rw [parse, hh]
  rw [← nameChar_eq] at hnames
  simp only [parseNames_text hw.names.1 hnames, Run.bind]
  rw [parsePoints, search_commaOpen]
  simp only [pointsLoop_text hw.points ht]

/-- The written number alone, without anything around it, is read. -/
def plainItem (d : Decimal) : Item := .val [] d.int d.frac []

theorem plainItem_ok {d : Decimal} (h : d.Ok) : (plainItem d).Ok :=
  ⟨by simp [Plain], by simp, h.1, h.2.1, h.2.2, by simp [Plain], by simp⟩

/-- **C98.** A sequence of numbers written with a decimal point is read into as many values, in order. -/
theorem C98_values (rd : List Char → V) {l : List Decimal} (hl : ∀ d ∈ l, d.Ok) (s : List Char) :
    parseSeq rd (commas (l.map Decimal.text) ++ ')' :: s) [] = .done (l.map fun d => rd d.text, s) := by
  have h := parseSeq_items (rd := rd) (l := l.map plainItem) (fun i hi => by
    obtain ⟨d, hd, rfl⟩ := List.mem_map.1 hi
    exact plainItem_ok (hl d hd)) s []
  have e1 : (l.map plainItem).map Item.text = l.map Decimal.text := by
    rw [List.map_map]
    apply List.map_congr_left
    intro d _
    simp [plainItem, Item.text, Decimal.text]
  have e2 : (l.map plainItem).filterMap Item.number = l.map Decimal.text := by
    rw [List.filterMap_map, ← List.filterMap_eq_map]
    rfl
  rw [e1, e2] at h
  simpa [Function.comp_def] using h

/-! ### C99: termination -/

/-- The reading of a sequence always ends. -/
theorem parseSeq_done (rd : List Char → V) (s : List Char) (acc : List V) : ∃ r, parseSeq rd s acc = .done r ∧ r.2.length ≤ s.length := by
  induction hn : s.length using Nat.strongRecOn generalizing s acc with
  | _ n ih =>
    cases h : search valuesRe s with
    | none => exact ⟨(acc, s), by rw [parseSeq, h], by simp [hn]⟩
    | some x =>
      obtain ⟨rest, what⟩ := x
      have hlt := search_values_lt h
      rw [parseSeq_step h]
      split
      · exact ⟨_, rfl, by simp; omega⟩
      · obtain ⟨r, h1, h2⟩ := ih rest.length (by omega) rest _ rfl
        exact ⟨r, h1, by omega⟩

theorem search_le {e : Rx} {s : List Char} {r : List Char × Caps} (h : search e s = some r) : r.1.length ≤ s.length := by
  obtain ⟨a, b, rfl, hr, -⟩ := search_sound h
  obtain ⟨m, e⟩ := run_suffix (List.mem_of_head? hr)
  rw [e]
  simp
  omega

/-- The reading of a point always ends. -/
theorem parsePoint_done (rd : List Char → V) (s : List Char) :
    parsePoint rd s = .done none ∨ ∃ p r, parsePoint rd s = .done (some (p, r)) ∧ r.length ≤ s.length := by
  rw [parsePoint]
  cases h1 : search openRe s with
  | none => exact .inl rfl
  | some x1 =>
    obtain ⟨⟨v1, t1⟩, e1, l1⟩ := parseSeq_done rd x1.1 []
    simp only [e1, Run.bind]
    have g1 := search_le h1
    cases h2 : search commaOpenRe t1 with
    | none => exact .inl rfl
    | some x2 =>
      obtain ⟨⟨v2, t2⟩, e2, l2⟩ := parseSeq_done rd x2.1 []
      simp only [e2]
      have g2 := search_le h2
      cases h3 : search commaOpenRe t2 with
      | none => exact .inl rfl
      | some x3 =>
        obtain ⟨⟨v3, t3⟩, e3, l3⟩ := parseSeq_done rd x3.1 []
        simp only [e3]
        have g3 := search_le h3
        cases h4 : search commaOpenRe t3 with
        | none => exact .inl rfl
        | some x4 =>
          obtain ⟨⟨v4, t4⟩, e4, l4⟩ := parseSeq_done rd x4.1 []
          simp only [e4]
          have g4 := search_le h4
          refine .inr ⟨_, _, rfl, ?_⟩
          simp only at l1 l2 l3 l4 ⊢
          omega

/-- The reading of the points always ends. -/
theorem pointsLoop_done (rd : List Char → V) (s : List Char) (acc : List (Point V)) :
    ∃ more, pointsLoop rd s acc = .done (acc ++ more) := by
  induction hn : s.length using Nat.strongRecOn generalizing s acc with
  | _ n ih =>
    rw [pointsLoop]
    cases h1 : search openRe s with
    | none => exact ⟨[], by simp⟩
    | some x1 =>
      have g1 := search_le h1
      rcases parsePoint_done rd x1.1 with h2 | ⟨p, r, h2, g2⟩
      · simp only [h2]
        exact ⟨[], by simp⟩
      · simp only [h2]
        cases h3 : search closeRe r with
        | none => exact ⟨[p], rfl⟩
        | some x3 =>
          have g3 := search_le h3
          cases h4 : search valuesRe x3.1 with
          | none => simp only [h4]; exact ⟨[p], rfl⟩
          | some x4 =>
            have g4 := search_values_lt h4
            simp only [h4]
            split
            · exact ⟨[p], rfl⟩
            · have : x4.1.length < s.length := by omega
              rw [if_pos this]
              obtain ⟨more, e⟩ := ih x4.1.length (by omega) x4.1 (acc ++ [p]) rfl
              exact ⟨p :: more, by rw [e]; simp⟩

/-- A name character that a closing parenthesis follows occurs in the text. -/
def HasNameClose (s : List Char) : Prop := ∃ a c b, s = a ++ c :: ')' :: b ∧ wordChar c = true

/-- An occurrence in a text that begins with a name and a comma is after the comma. -/
theorem nameClose_after {w rest a' b' : List Char} {c' : Char} (hw : ∀ d ∈ w, nameChar d = true) (hc : nameChar c' = true)
    (e : w ++ ',' :: rest = a' ++ c' :: ')' :: b') : HasNameClose rest := by
  induction w generalizing a' with
  | nil =>
    cases a' with
    | nil =>
      simp only [List.nil_append, List.cons.injEq] at e
      rw [← e.1] at hc
      exact absurd hc (by decide)
    | cons x a' =>
      simp only [List.nil_append, List.cons_append, List.cons.injEq] at e
      exact ⟨a', c', b', e.2, nameChar_eq ▸ hc⟩
  | cons d w ih =>
    have hw' : ∀ x ∈ w, nameChar x = true := fun x hx => hw x (by simp [hx])
    cases a' with
    | nil =>
      simp only [List.nil_append, List.cons_append, List.cons.injEq] at e
      cases w with
      | nil => simp at e
      | cons x w =>
        simp only [List.cons_append, List.cons.injEq] at e
        have := hw' x (by simp)
        rw [e.2.1] at this
        exact absurd this (by decide)
    | cons x a' =>
      simp only [List.cons_append, List.cons.injEq] at e
      exact ih hw' e.2

/-- The same with a text before the name. -/
theorem nameClose_split {a w rest a' b' : List Char} {c c' : Char} (hw : ∀ d ∈ w ++ [c], nameChar d = true) (hc : nameChar c' = true)
    (e : a ++ (w ++ c :: ',' :: rest) = a' ++ c' :: ')' :: b') : HasNameClose rest ∨ ∃ a2, a = a' ++ c' :: ')' :: a2 := by
  induction a generalizing a' with
  | nil => exact .inl (nameClose_after (w := w ++ [c]) hw hc (by simpa using e))
  | cons x a ih =>
    cases a' with
    | nil =>
      simp only [List.nil_append, List.cons_append, List.cons.injEq] at e
      cases a with
      | nil =>
        have h : ∀ d l, (w ++ c :: l).head? = some d → nameChar d = true := by
          intro d l h
          apply hw
          cases w with
          | nil => simp at h; simp [h]
          | cons y w => simp at h; simp [h]
        have := h ')' (',' :: rest) (by simp only [List.nil_append] at e; rw [e.2]; rfl)
        exact absurd this (by decide)
      | cons y a =>
        simp only [List.cons_append, List.cons.injEq] at e
        exact .inr ⟨a, by simp [e.1, e.2.1]⟩
    | cons y a' =>
      simp only [List.cons_append, List.cons.injEq] at e
      rcases ih e.2 with h | ⟨a2, h⟩
      · exact .inl h
      · exact .inr ⟨a2, by simp [e.1, h]⟩

/-- **C99.** The reading of the joint names ends if and only if a name character followed at once by a closing parenthesis occurs. -/
theorem C99_names_end (s : List Char) (acc : List (List Char)) : parseNames s acc ≠ .diverge ↔ HasNameClose s := by
  unfold HasNameClose
  rw [← nameChar_eq]
  induction hn : s.length using Nat.strongRecOn generalizing s acc with
  | _ n ih =>
    rw [parseNames]
    cases h : search namesRe s with
    | none =>
      simp only [ne_eq, not_true, false_iff]
      rintro ⟨a, c, b, rfl, hc⟩
      have := search_names_complete (a := a) (b := b) hc (.inr rfl)
      rw [h] at this
      cases this
    | some x =>
      obtain ⟨rest, what⟩ := x
      obtain ⟨a, w, c, sep, e, hw, hc, hs, h1, h2, hleft⟩ := search_names_sound h
      simp only [h2]
      rcases hs with rfl | rfl
      · have hlt : rest.length < s.length := by rw [e]; simp; omega
        rw [if_neg (by decide), if_pos hlt, ih rest.length (by omega) rest _ rfl]
        constructor
        · rintro ⟨a', c', b', e', hc'⟩
          exact ⟨a ++ w ++ c :: ',' :: a', c', b', by rw [e, e']; simp, hc'⟩
        · rintro ⟨a', c', b', e', hc'⟩
          have key : ∀ (a a' : List Char), a ++ w ++ c :: ',' :: rest = a' ++ c' :: ')' :: b' →
              HasNameClose rest ∨ ∃ a2, a = a' ++ c' :: ')' :: a2 := by
            intro a a' e
            exact nameClose_split (fun d hd => (List.mem_append.1 hd).elim (hw d) fun h => by rw [List.mem_singleton.1 h]; exact hc) hc'
              (by simpa using e)
          rcases key a a' (e.symm.trans e') with h | ⟨a2, h⟩
          · unfold HasNameClose at h
            rw [← nameChar_eq] at h
            exact h
          · rcases hleft a' c' ')' a2 with h' | h' | h'
            · exact absurd h h'
            · rw [hc'] at h'
              cases h'
            · exact absurd rfl h'
      · rw [if_pos rfl]
        simp only [ne_eq, reduceCtorEq, not_false_eq_true, true_iff]
        exact ⟨a ++ w, c, rest, e, hc⟩

/-- **C99.** The reading of a trajectory ends if and only if the text that follows its header, which is the whole text when there is no
header, has a name character followed at once by a closing parenthesis. -/
theorem C99_ends (rd : List Char → V) (text : List Char) (t : Trajectory V) :
    (∃ t', parse rd text t = .done t') ↔ HasNameClose (match search headerRe text with | some r => r.1 | none => text) := by
  have hrest : (parseHeader text t).2 = match search headerRe text with | some r => r.1 | none => text := by
    rw [parseHeader]
    cases search headerRe text <;> rfl
  rw [← hrest, ← C99_names_end _ (parseHeader text t).1.names, parse]
  simp only
  cases h : parseNames (parseHeader text t).2 (parseHeader text t).1.names with
  | diverge => simp [Run.bind]
  | done r =>
    simp only [Run.bind, ne_eq, reduceCtorEq, not_false_eq_true, iff_true]
    rw [parsePoints]
    cases h2 : search commaOpenRe r.2 with
    | none => exact ⟨_, rfl⟩
    | some x =>
      obtain ⟨more, e⟩ := pointsLoop_done rd x.1 (parseHeader text t).1.points
      simp only [e]
      exact ⟨_, rfl⟩

/-- **C99.** On a text without a name character followed at once by a closing parenthesis the reading does not end. -/
theorem C99_hangs (rd : List Char → V) {text : List Char} (h : ¬HasNameClose text) (t : Trajectory V) : parse rd text t = .diverge := by
  have hn : ¬∃ t', parse rd text t = .done t' := by
    rw [C99_ends]
    intro hr
    cases hs : search headerRe text with
    | none => rw [hs] at hr; exact h hr
    | some r =>
      rw [hs] at hr
      obtain ⟨a, b, e, hh, -⟩ := search_sound hs
      obtain ⟨m, e'⟩ := run_suffix (List.mem_of_head? hh)
      obtain ⟨a', c, b', e2, hc⟩ := hr
      simp only at e2
      exact h ⟨a ++ m ++ a', c, b', by rw [e, e', e2]; simp, hc⟩
  cases h2 : parse rd text t with
  | done t' => exact absurd ⟨t', h2⟩ hn
  | diverge => rfl

/-- The empty text hangs the command. -/
theorem C99_hangs_empty (rd : List Char → V) (t : Trajectory V) : parse rd [] t = .diverge :=
  C99_hangs rd (fun ⟨_, _, _, e, _⟩ => by simp at e) t

/-! ### What any reading does -/

/-- Whether an expression captures a group. -/
def Rx.captures (n : Nat) : Rx → Bool
  | .seq a b => a.captures n || b.captures n
  | .alt a b => a.captures n || b.captures n
  | .grp m a => m == n || a.captures n
  | _ => false

theorem run_keeps {e : Rx} {n : Nat} (he : e.captures n = false) {s : List Char} {k : Caps} {r : List Char × Caps} (h : r ∈ e.run s k) :
    r.2 n = k n := by
  induction e generalizing s k r with
  | cls p =>
    cases s with
    | nil => simp [Rx.run] at h
    | cons c s =>
      by_cases hc : p c = true
      · simp [Rx.run, hc] at h
        simp [h]
      · simp [Rx.run, hc] at h
  | star p =>
    simp only [Rx.run, List.mem_map] at h
    obtain ⟨z, -, rfl⟩ := h
    rfl
  | starPoss p =>
    simp [Rx.run] at h
    simp [h]
  | seq a b iha ihb =>
    simp only [Rx.captures, Bool.or_eq_false_iff] at he
    simp only [Rx.run, List.mem_flatMap] at h
    obtain ⟨x, hx, hr⟩ := h
    rw [ihb he.2 hr, iha he.1 hx]
  | alt a b iha ihb =>
    simp only [Rx.captures, Bool.or_eq_false_iff] at he
    simp only [Rx.run, List.mem_append] at h
    exact h.elim (iha he.1) (ihb he.2)
  | grp m a iha =>
    simp only [Rx.captures, Bool.or_eq_false_iff, beq_eq_false_iff_ne] at he
    simp only [Rx.run, List.mem_map] at h
    obtain ⟨x, hx, rfl⟩ := h
    rw [← iha he.2 hx]
    simp [Ne.symm he.1]
  | eps =>
    simp [Rx.run] at h
    simp [h]

/-- The first group of a header is made of digits. -/
theorem header_seq {s : List Char} {r : List Char × Caps} (h : search headerRe s = some r) : ∀ c ∈ r.2 1, digit c = true := by
  obtain ⟨a, b, -, hh, -⟩ := search_sound h
  have hm := List.mem_of_head? hh
  rw [headerRe] at hm
  simp only [Rx.run, List.mem_flatMap] at hm
  obtain ⟨x, -, y, hy, hr⟩ := hm
  have hk := run_keeps (n := 1) (e := .seq (.chr ',') <| .seq (.chr '(') <|
    .seq (.grp 2 floatRe) <| .seq (.chr ',') <| .seq (.grp 3 floatRe) <| .seq (.chr ')') <|
    .seq (.chr ',') <| .seq (.grp 4 (.star frameChar)) <| .seq (.chr ')') <| .seq (.chr ',') (.chr '(')) (by rfl) (s := y.1) (k := y.2) (r := r)
    (by simpa only [Rx.run, List.mem_flatMap] using hr)
  rw [hk]
  simp only [List.mem_map, Rx.plus, Rx.run, List.mem_flatMap] at hy
  obtain ⟨z, ⟨u, hu, ⟨v, hv, rfl⟩⟩, rfl⟩ := hy
  cases hx : x.1 with
  | nil => simp [hx, Rx.run] at hu
  | cons d l =>
    by_cases hd : digit d = true
    · simp [hx, Rx.run, hd] at hu
      subst hu
      obtain ⟨m, e, hm⟩ := stars_suffix hv
      simp only at e
      simp only [if_true, e, List.length_cons, List.length_append]
      rw [show m.length + v.length + 1 - v.length = (d :: m).length by simp; omega, ← List.cons_append, List.take_left']
      · simpa using ⟨hd, hm⟩
      · rfl
    · simp [hx, Rx.run, hd] at hu

/-- **C99.** Whatever the text, a reading that ends leaves the time stamp as it was, keeps the names and the points of the trajectory
and appends at least one name. -/
theorem C99_appends (rd : List Char → V) {text : List Char} {t t' : Trajectory V} (h : parse rd text t = .done t') :
    t'.secs = t.secs ∧ t'.nsecs = t.nsecs ∧ (∃ l, l ≠ [] ∧ t'.names = t.names ++ l) ∧ ∃ l, t'.points = t.points ++ l := by
  have hh : (parseHeader text t).1.secs = t.secs ∧ (parseHeader text t).1.nsecs = t.nsecs ∧ (parseHeader text t).1.names = t.names ∧
      (parseHeader text t).1.points = t.points := by
    rw [parseHeader]
    cases hs : search headerRe text with
    | none => simp
    | some r =>
      have hd := header_seq hs
      simp [IStr.str, IStr.unsigned, dropWhile_all hd]
  have hnames : ∀ (s : List Char) (acc : List (List Char)) r, parseNames s acc = .done r → ∃ l, l ≠ [] ∧ r.1 = acc ++ l := by
    intro s acc r
    induction hn : s.length using Nat.strongRecOn generalizing s acc with
    | _ n ih =>
      rw [parseNames]
      cases hs : search namesRe s with
      | none => simp
      | some x =>
        simp only
        split
        · intro e
          cases e
          exact ⟨[x.2 1], by simp⟩
        · split
          · intro e
            obtain ⟨l, -, hl⟩ := ih x.1.length (by omega) x.1 _ rfl e
            exact ⟨x.2 1 :: l, by simp, by rw [hl]; simp⟩
          · simp
  rw [parse] at h
  simp only at h
  cases h1 : parseNames (parseHeader text t).2 (parseHeader text t).1.names with
  | diverge => simp [h1, Run.bind] at h
  | done r =>
    obtain ⟨l, hl, e⟩ := hnames _ _ _ h1
    simp only [h1, Run.bind] at h
    rw [parsePoints] at h
    cases h2 : search commaOpenRe r.2 with
    | none =>
      simp only [h2] at h
      cases h
      exact ⟨hh.1, hh.2.1, ⟨l, hl, by rw [e, hh.2.2.1]⟩, [], by simp [hh.2.2.2]⟩
    | some x =>
      obtain ⟨more, e3⟩ := pointsLoop_done rd x.1 (parseHeader text t).1.points
      simp only [h2, e3] at h
      cases h
      exact ⟨hh.1, hh.2.1, ⟨l, hl, by rw [e, hh.2.2.1]⟩, more, by simp [hh.2.2.2]⟩

/-- **C99.** Two readings of written trajectories into the same trajectory accumulate: the second names and points follow the first. -/
theorem C99_twice (rd : List Char → V) (t : Trajectory V) {w v : Written} (hw : w.Ok) (hv : v.Ok) :
    (parse rd w.text t).bind (parse rd v.text) =
      .done { seq := min maxU (decimal v.seq), secs := t.secs, nsecs := t.nsecs, frame := v.frame, names := t.names ++ w.names ++ v.names,
              points := t.points ++ w.points.map (Point.read rd) ++ v.points.map (Point.read rd) } := by
  have h1 := C98_read rd t hw (lead := []) (tail := []) (by simp) (by simp)
  simp only [List.nil_append, List.append_nil] at h1
  rw [h1]
  have h2 := C98_read rd { seq := min maxU (decimal w.seq), secs := t.secs, nsecs := t.nsecs, frame := w.frame, names := t.names ++ w.names,
                              points := t.points ++ w.points.map (Point.read rd) } hv (lead := []) (tail := []) (by simp) (by simp)
  simp only [List.nil_append, List.append_nil] at h2
  rw [Run.bind, h2]

/-- **C99.** A copy of a trajectory has the header and the points of the original, but no joint name. -/
theorem C99_copy (t : Trajectory V) :
    (copy t).names = [] ∧ (copy t).points = t.points ∧ (copy t).seq = t.seq ∧ (copy t).secs = t.secs ∧ (copy t).nsecs = t.nsecs ∧
      (copy t).frame = t.frame := ⟨rfl, rfl, rfl, rfl, rfl, rfl⟩

end Verif.TrajText
