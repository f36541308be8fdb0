import Verif.Texts.Model

/-!
# C119: the texts that describe the stack, the tasks and the pool

The specification of a list is the way Python reads it; that of a display is its lines.
-/

namespace Verif.Texts

/-! ## Specification -/

/-- The items of a list or a tuple of strings in Python: strings between quotes, each followed by a comma, and spaces. -/
inductive Items (q : Char) : List Char → List (List Char) → Prop
  | done : Items q [] []
  | space {t : List Char} {l : List (List Char)} : Items q t l → Items q (' ' :: t) l
  | item {n t : List Char} {l : List (List Char)} : q ∉ n → '\\' ∉ n → '\n' ∉ n → Items q t l → Items q (q :: (n ++ q :: ',' :: t)) (n :: l)

/-- The text of a list or a tuple of strings. -/
def Reads (q o c : Char) (s : List Char) (l : List (List Char)) : Prop := ∃ t, s = o :: (t ++ [c]) ∧ Items q t l

/-- A name that needs no escape. -/
def Simple (q : Char) (n : List Char) : Prop := q ∉ n ∧ '\\' ∉ n ∧ '\n' ∉ n

/-- The lines of a text, each of them ended by a newline. -/
def lines : List Char → List (List Char)
  | [] => []
  | c :: s =>
    if c = '\n' then [] :: lines s
    else
      match lines s with
      | [] => [[c]]
      | l :: ls => (c :: l) :: ls

/-! ## Lemmas -/

theorem split_unique {q : Char} : ∀ {a b x y : List Char}, q ∉ a → q ∉ b → a ++ q :: x = b ++ q :: y → a = b ∧ x = y := by
  intro a
  induction a with
  | nil =>
    intro b x y _ hb h
    cases b with
    | nil => simp only [List.nil_append, List.cons.injEq, true_and] at h; exact ⟨rfl, h⟩
    | cons c cs =>
      simp only [List.nil_append, List.cons_append, List.cons.injEq] at h
      exact absurd (h.1 ▸ List.mem_cons_self ..) hb
  | cons d ds ih =>
    intro b x y ha hb h
    cases b with
    | nil =>
      simp only [List.nil_append, List.cons_append, List.cons.injEq] at h
      exact absurd (h.1 ▸ List.mem_cons_self ..) ha
    | cons c cs =>
      simp only [List.cons_append, List.cons.injEq] at h
      simp only [List.mem_cons, not_or] at ha hb
      obtain ⟨h1, h2⟩ := ih ha.2 hb.2 h.2
      exact ⟨by rw [h.1, h1], h2⟩

theorem items_unique {q : Char} (hq : q ≠ ' ') : ∀ {t : List Char} {a b : List (List Char)}, Items q t a → Items q t b → a = b := by
  intro t a b ha
  induction ha generalizing b with
  | done => intro hb; cases hb; rfl
  | space _ ih =>
    intro hb
    generalize hs : ' ' :: _ = s at hb
    cases hb with
    | done => cases hs
    | space h => cases hs; exact ih h
    | item => simp only [List.cons.injEq] at hs; exact absurd hs.1.symm hq
  | item h1 _ _ _ ih =>
    intro hb
    generalize hs : q :: _ = s at hb
    cases hb with
    | done => cases hs
    | space h => simp only [List.cons.injEq] at hs; exact absurd hs.1 hq
    | item h1' _ _ h =>
      simp only [List.cons.injEq, true_and] at hs
      obtain ⟨rfl, h2⟩ := split_unique h1 h1' hs
      simp only [List.cons.injEq, true_and] at h2
      subst h2
      rw [ih h]

theorem reads_unique {q o c : Char} (hq : q ≠ ' ') {s : List Char} {a b : List (List Char)} (ha : Reads q o c s a) (hb : Reads q o c s b) :
    a = b := by
  obtain ⟨t, rfl, ht⟩ := ha
  obtain ⟨u, hu, hb⟩ := hb
  simp only [List.cons.injEq, List.append_cancel_right_eq, true_and] at hu
  subst hu
  exact items_unique hq ht hb

theorem lines_cons {l : List Char} (h : '\n' ∉ l) (r : List Char) : lines (l ++ '\n' :: r) = l :: lines r := by
  induction l with
  | nil => simp [lines]
  | cons c cs ih =>
    simp only [List.mem_cons, not_or] at h
    rw [List.cons_append, lines, if_neg (Ne.symm h.1), ih h.2]

theorem lines_flatMap {α : Type} (f g : α → List Char) (r : List Char) : ∀ (l : List α), (∀ a ∈ l, f a = g a ++ ['\n'] ∧ '\n' ∉ g a) →
    lines (l.flatMap f ++ r) = l.map g ++ lines r := by
  intro l
  induction l with
  | nil => intro _; rfl
  | cons a l ih =>
    intro h
    have ha := h a (List.mem_cons_self ..)
    rw [List.flatMap_cons, List.append_assoc, ha.1, List.append_assoc, List.singleton_append, lines_cons ha.2,
      ih (fun b hb => h b (List.mem_cons_of_mem _ hb))]
    rfl

/-! ## Theorems -/

/-- C119: the list of the tasks of the stack is read by Python as the tuple of their names, in the order of the stack. -/
theorem C119_list (tasks : List (List Char)) (h : ∀ n ∈ tasks, Simple '"' n) (l : List (List Char)) :
    Reads '"' '(' ')' (listStack tasks) l ↔ l = tasks := by
  have hr : Reads '"' '(' ')' (listStack tasks) tasks := by
    refine ⟨' ' :: tasks.flatMap (fun n => '"' :: (n ++ "\", ".toList)), by unfold listStack; simp, .space ?_⟩
    clear l
    induction tasks with
    | nil => exact .done
    | cons n ns ih =>
      have hn := h n (List.mem_cons_self ..)
      have : (n :: ns).flatMap (fun n => '"' :: (n ++ "\", ".toList)) =
          '"' :: (n ++ '"' :: ',' :: (' ' :: ns.flatMap (fun n => '"' :: (n ++ "\", ".toList)))) := by simp
      rw [this]
      exact .item hn.1 hn.2.1 hn.2.2 (.space (ih fun m hm => h m (List.mem_cons_of_mem _ hm)))
  exact ⟨fun hl => reads_unique (by decide) hl hr, fun e => e ▸ hr⟩

/-- C119: the list of the features of a task is read by Python as the list of their names, in their order. -/
theorem C119_features (features : List (List Char)) (h : ∀ n ∈ features, Simple '\'' n) (l : List (List Char)) :
    Reads '\'' '[' ']' (listFeatures features) l ↔ l = features := by
  have hr : Reads '\'' '[' ']' (listFeatures features) features := by
    refine ⟨features.flatMap (fun n => '\'' :: (n ++ "',".toList)), by unfold listFeatures; simp, ?_⟩
    clear l
    induction features with
    | nil => exact .done
    | cons n ns ih =>
      have hn := h n (List.mem_cons_self ..)
      have : (n :: ns).flatMap (fun n => '\'' :: (n ++ "',".toList)) =
          '\'' :: (n ++ '\'' :: ',' :: ns.flatMap (fun n => '\'' :: (n ++ "',".toList))) := by simp
      rw [this]
      exact .item hn.1 hn.2.1 hn.2.2 (ih fun m hm => h m (List.mem_cons_of_mem _ hm))
  exact ⟨fun hl => reads_unique (by decide) hl hr, fun e => e ▸ hr⟩

/-- C119, counterexample: names with a quote make other names appear. -/
theorem C119_quote_counterexample (a b : List Char) :
    listStack [a ++ "\", \"".toList ++ b] = listStack [a, b] ∧ listFeatures [a ++ "','".toList ++ b] = listFeatures [a, b] := by
  unfold listStack listFeatures
  simp

/-- C119: the lines of the display of a stack. -/
theorem C119_display_stack (tasks : List (List Char)) (h : ∀ n ∈ tasks, '\n' ∉ n) :
    lines (displayStack tasks) = ["+-----------------".toList, "+   SOT     ".toList, "+-----------------".toList] ++
      tasks.map (fun n => '|' :: ' ' :: n) ++ ["+-----------------".toList] := by
  have e1 : "+-----------------\n+   SOT     \n+-----------------\n".toList =
      "+-----------------".toList ++ '\n' :: ("+   SOT     ".toList ++ '\n' :: ("+-----------------".toList ++ ['\n'])) := by decide
  have e2 : "+-----------------\n".toList = "+-----------------".toList ++ '\n' :: [] := by decide
  unfold displayStack
  rw [e1, e2]
  simp only [List.append_assoc, List.cons_append, List.nil_append]
  rw [lines_cons (by decide), lines_cons (by decide), lines_cons (by decide),
    lines_flatMap (fun n => "| ".toList ++ (n ++ "\n".toList)) (fun n => '|' :: ' ' :: n) _ tasks
      (fun n hn => ⟨by simp, by simp [h n hn]⟩), lines_cons (by decide)]
  rfl

/-- C119: the lines of the display of a task. -/
theorem C119_display_task (name : List Char) (features : List (List Char)) (hn : '\n' ∉ name) (h : ∀ n ∈ features, '\n' ∉ n) :
    lines (displayTask name features) = ["Task ".toList ++ name ++ ": ".toList, "--- LIST ---  ".toList] ++
      features.map fun n => '-' :: '>' :: ' ' :: n := by
  have e : ": \n--- LIST ---  \n".toList = ": ".toList ++ '\n' :: ("--- LIST ---  ".toList ++ ['\n']) := by decide
  unfold displayTask
  rw [e, show "Task ".toList ++ name ++ (": ".toList ++ '\n' :: ("--- LIST ---  ".toList ++ ['\n'])) ++
      (features.flatMap fun n => "-> ".toList ++ (n ++ "\n".toList)) =
    ("Task ".toList ++ name ++ ": ".toList) ++ '\n' :: ("--- LIST ---  ".toList ++ '\n' ::
      ((features.flatMap fun n => "-> ".toList ++ (n ++ "\n".toList)) ++ [])) by simp]
  rw [lines_cons (by simp [hn]), lines_cons (by decide),
    lines_flatMap (fun n => "-> ".toList ++ (n ++ "\n".toList)) (fun n => '-' :: '>' :: ' ' :: n) [] features
      (fun n hn => ⟨by simp, by simp [h n hn]⟩)]
  simp [lines]

/-- C119: the graph of a task has one edge from each feature to the task. -/
theorem C119_graph_task (name : List Char) (features : List (List Char)) (hn : '\n' ∉ name) (h : ∀ n ∈ features, '\n' ∉ n) :
    lines (graphTask name features) = features.map fun n => "\t\"".toList ++ n ++ "\" -> \"".toList ++ name ++ "\"".toList := by
  have := lines_flatMap (fun n => "\t\"".toList ++ n ++ "\" -> \"".toList ++ name ++ "\"\n".toList)
    (fun n => "\t\"".toList ++ n ++ "\" -> \"".toList ++ name ++ "\"".toList) [] features
    (fun n hf => ⟨by simp, by simp [h n hf, hn]⟩)
  unfold graphTask
  rw [List.append_nil] at this
  rw [this]
  simp [lines]

theorem lines_edges (r : List Char) : ∀ (l : List (List Char)), (∀ n ∈ l, '\n' ∉ n) →
    lines (edges l ++ r) = (l.zip l.tail).map (fun p => "\t\t\t\"".toList ++ p.1 ++ "\" -> \"".toList ++ p.2 ++ "\" [color=red]".toList) ++
      lines r := by
  intro l
  induction l with
  | nil => intro _; rfl
  | cons a l ih =>
    intro h
    cases l with
    | nil => rfl
    | cons b l =>
      have ha := h a (by simp)
      have hb := h b (by simp)
      have e : edges (a :: b :: l) ++ r = ("\t\t\t\"".toList ++ a ++ "\" -> \"".toList ++ b ++ "\" [color=red]".toList) ++ '\n' ::
          (edges (b :: l) ++ r) := by
        rw [edges]; simp
      rw [e, lines_cons (by simp [ha, hb]), ih (fun n hn => h n (List.mem_cons_of_mem _ hn))]
      rfl

/-- C119: the graph of the stack: an edge from each task to the next one, then a cluster of the tasks. -/
theorem C119_graph_stack (name : List Char) (tasks : List (List Char)) (hn : '\n' ∉ name) (h : ∀ n ∈ tasks, '\n' ∉ n) :
    lines (graphStack name tasks) =
      (tasks.zip tasks.tail).map (fun p => "\t\t\t\"".toList ++ p.1 ++ "\" -> \"".toList ++ p.2 ++ "\" [color=red]".toList) ++
      ["\t\tsubgraph cluster_Tasks {".toList, "\t\t\tsubgraph \"cluster_".toList ++ name ++ "\" {".toList,
       "\t\t\t\tcolor=lightsteelblue1; label=\"".toList ++ name ++ "\"; style=filled;".toList] ++
      tasks.flatMap (fun t => ["\t\t\t\t\"".toList ++ t ++ "\" [ label = \"".toList ++ t ++ "\" ,".toList,
        "\t\t\t\t   fontcolor = black, color = black, fillcolor = magenta, style=filled, shape=box ]".toList]) ++
      ["\t\t\t}".toList, "\t\t\t}".toList] := by
  have hc : ∀ (l : List (List Char)) (r : List Char), (∀ n ∈ l, '\n' ∉ n) →
      lines (l.flatMap (fun t => "\t\t\t\t\"".toList ++ t ++ "\" [ label = \"".toList ++ t ++ "\" ,\n".toList ++
        "\t\t\t\t   fontcolor = black, color = black, fillcolor = magenta, style=filled, shape=box ]\n".toList) ++ r) =
      l.flatMap (fun t => ["\t\t\t\t\"".toList ++ t ++ "\" [ label = \"".toList ++ t ++ "\" ,".toList,
        "\t\t\t\t   fontcolor = black, color = black, fillcolor = magenta, style=filled, shape=box ]".toList]) ++ lines r := by
    intro l r
    induction l with
    | nil => intro _; rfl
    | cons a l ih =>
      intro h
      have ha := h a (by simp)
      have e1 : "\" ,\n".toList = "\" ,".toList ++ ['\n'] := by decide
      have e2 : "\t\t\t\t   fontcolor = black, color = black, fillcolor = magenta, style=filled, shape=box ]\n".toList =
        "\t\t\t\t   fontcolor = black, color = black, fillcolor = magenta, style=filled, shape=box ]".toList ++ ['\n'] := by decide
      rw [List.flatMap_cons, List.flatMap_cons, List.append_assoc, e1, e2]
      rw [show ∀ (x y z w : List Char), x ++ (y ++ ['\n']) ++ (z ++ ['\n']) ++ w = (x ++ y) ++ '\n' :: (z ++ '\n' :: w) by simp]
      rw [lines_cons (by simp [ha]), lines_cons (by decide), ← e1, ← e2, ih (fun n hn => h n (List.mem_cons_of_mem _ hn))]
      simp
  have e : graphStack name tasks = edges tasks ++ ("\t\tsubgraph cluster_Tasks {".toList ++ '\n' ::
      (("\t\t\tsubgraph \"cluster_".toList ++ name ++ "\" {".toList) ++ '\n' ::
      (("\t\t\t\tcolor=lightsteelblue1; label=\"".toList ++ name ++ "\"; style=filled;".toList) ++ '\n' ::
      (tasks.flatMap (fun t => "\t\t\t\t\"".toList ++ t ++ "\" [ label = \"".toList ++ t ++ "\" ,\n".toList ++
        "\t\t\t\t   fontcolor = black, color = black, fillcolor = magenta, style=filled, shape=box ]\n".toList) ++
      ("\t\t\t}".toList ++ '\n' :: ("\t\t\t}".toList ++ '\n' :: [])))))) := by
    unfold graphStack
    simp
  rw [e, lines_edges _ _ h, lines_cons (by decide), lines_cons (by simp [hn]), lines_cons (by simp [hn]), hc _ _ h,
    lines_cons (by decide), lines_cons (by decide)]
  simp [lines]

theorem count_flatMap_zero {α : Type} {c : Char} (f : α → List Char) : ∀ (l : List α), (∀ a ∈ l, c ∉ f a) → (l.flatMap f).count c = 0 := by
  intro l h
  rw [List.count_eq_zero, List.mem_flatMap]
  rintro ⟨a, ha, hc⟩
  exact h a ha hc

theorem count_edges {c : Char} (hc : c = '{' ∨ c = '}') : ∀ (l : List (List Char)), (∀ n ∈ l, c ∉ n) → (edges l).count c = 0 := by
  intro l
  induction l with
  | nil => intro _; rfl
  | cons a l ih =>
    intro h
    cases l with
    | nil => rfl
    | cons b l =>
      have ha := h a (by simp)
      have hb := h b (by simp)
      rw [edges, List.count_append, ih (fun n hn => h n (List.mem_cons_of_mem _ hn)), Nat.add_zero, List.count_eq_zero]
      rcases hc with rfl | rfl <;> simp [ha, hb]

/-- C119: the graph of the stack closes the two blocks it opens. -/
theorem C119_graph_balanced (name : List Char) (tasks : List (List Char)) (h : ∀ n ∈ name :: tasks, '{' ∉ n ∧ '}' ∉ n) :
    (graphStack name tasks).count '{' = 2 ∧ (graphStack name tasks).count '}' = 2 := by
  have hn := h name (by simp)
  have ht : ∀ n ∈ tasks, '{' ∉ n ∧ '}' ∉ n := fun n hn => h n (List.mem_cons_of_mem _ hn)
  have n1 := List.count_eq_zero.mpr hn.1
  have n2 := List.count_eq_zero.mpr hn.2
  unfold graphStack
  simp only [List.count_append]
  rw [count_edges (Or.inl rfl) tasks (fun n hn => (ht n hn).1), count_edges (Or.inr rfl) tasks (fun n hn => (ht n hn).2),
    count_flatMap_zero _ tasks (fun n hn => by simp [(ht n hn).1]), count_flatMap_zero _ tasks (fun n hn => by simp [(ht n hn).2]), n1, n2]
  decide

/-- C119, counterexample: the graph of the pool never closes the block it opens first, whatever the tasks. -/
theorem C119_pool_unclosed_counterexample (date file text : List Char) (tasks : List (List Char))
    (h : ∀ n ∈ date :: file :: tasks, '{' ∉ n ∧ '}' ∉ n) (hw : graphPool date file tasks = .ok text) :
    text.count '{' = 2 ∧ text.count '}' = 1 := by
  have hd := h date (by simp)
  have hf := h file (by simp)
  have ht : ∀ n ∈ tasks, '{' ∉ n ∧ '}' ∉ n := fun n hn => h n (by simp [hn])
  unfold graphPool at hw
  rw [Outcome.map_eq_ok] at hw
  obtain ⟨g, hg, rfl⟩ := hw
  have sub : ∀ c, c ∉ file → c ∉ g := by
    intro c hc
    unfold genericName substr at hg
    rw [Outcome.bind_eq_ok] at hg
    obtain ⟨t, h1, h2⟩ := hg
    have mt : c ∉ t := by
      split at h1
      · cases h1
      · injection h1 with h1
        subst h1
        split
        · exact fun hm => hc (List.mem_of_mem_drop (List.mem_of_mem_take hm))
        · exact fun hm => hc (List.mem_of_mem_drop hm)
    split at h2
    · split at h2
      · cases h2
      · injection h2 with h2
        subst h2
        exact fun hm => mt (List.mem_of_mem_drop (List.mem_of_mem_take hm))
    · injection h2 with h2
      exact h2 ▸ mt
  have g1 := List.count_eq_zero.mpr (sub _ hf.1)
  have g2 := List.count_eq_zero.mpr (sub _ hf.2)
  have d1 := List.count_eq_zero.mpr hd.1
  have d2 := List.count_eq_zero.mpr hd.2
  simp only [List.count_append]
  rw [count_flatMap_zero _ tasks (fun n hn => by simp [(ht n hn).1]), count_flatMap_zero _ tasks (fun n hn => by simp [(ht n hn).2]),
    g1, g2, d1, d2]
  decide

theorem rfind_none {c : Char} : ∀ {s : List Char}, c ∉ s → rfind c s = none := by
  intro s
  induction s with
  | nil => intro _; rfl
  | cons x xs ih =>
    intro h
    simp only [List.mem_cons, not_or] at h
    rw [rfind, ih h.2]
    simp [Ne.symm h.1]

theorem rfind_some {c : Char} {e : List Char} (he : c ∉ e) : ∀ (a : List Char), rfind c (a ++ c :: e) = some a.length := by
  intro a
  induction a with
  | nil => rw [List.nil_append, rfind, rfind_none he]; simp
  | cons x xs ih => rw [List.cons_append, rfind, ih]; rfl

/-- C119: without a directory, the graph is named after the file, without what follows the last dot. -/
theorem C119_name_plain (b e : List Char) (hs : '/' ∉ b) :
    ('.' ∉ b → genericName b = .ok b) ∧ ('.' ∉ e → '/' ∉ e → genericName (b ++ '.' :: e) = .ok b) := by
  constructor
  · intro hd
    unfold genericName substr
    rw [rfind_none hd, rfind_none hs]
    simp
  · intro hd hse
    unfold genericName substr
    rw [rfind_some hd, rfind_none (by simp [hs, hse])]
    simp

/-- C119, counterexample: with a directory, the name of the graph begins with a slash. -/
theorem C119_name_directory_counterexample (d b e : List Char) (hs : '/' ∉ b) :
    ('.' ∉ d ++ b → genericName (d ++ '/' :: b) = .ok ('/' :: b)) ∧
    ('.' ∉ e → '/' ∉ e → genericName (d ++ '/' :: (b ++ '.' :: e)) = .ok ('/' :: b)) := by
  constructor
  · intro hd
    unfold genericName substr
    simp only [List.mem_append, not_or] at hd
    rw [rfind_none (by simp [hd]), rfind_some hs]
    simp only [Nat.not_lt_zero, if_false, Outcome.bind_ok, List.drop_zero]
    rw [if_neg (by simp), List.drop_left, List.take_of_length_le (by simp)]
  · intro hd hse
    unfold genericName substr
    have := rfind_some hd (d ++ '/' :: b)
    simp only [List.append_assoc, List.cons_append] at this
    rw [this, rfind_some (by simp [hs, hse])]
    simp only [Nat.not_lt_zero, if_false, Outcome.bind_ok, List.drop_zero]
    rw [show d ++ '/' :: (b ++ '.' :: e) = (d ++ '/' :: b) ++ '.' :: e by simp, List.take_left, if_neg (by simp), List.drop_left,
      List.take_of_length_le (by simp)]

/-- C119, counterexample: when the last dot of the path is in the name of a directory, the call throws. -/
theorem C119_name_dot_counterexample (a m b : List Char) (hm : '.' ∉ m) (hb : '/' ∉ b) (hd : '.' ∉ b) :
    genericName (a ++ '.' :: (m ++ '/' :: b)) = .throw := by
  unfold genericName substr
  rw [rfind_some (by simp [hm, hd])]
  have := rfind_some hb (a ++ '.' :: m)
  simp only [List.append_assoc, List.cons_append] at this
  rw [this]
  simp

/-- C119: these are all the names of files. -/
theorem C119_name_cases (file : List Char) :
    (∃ b, file = b ∧ '/' ∉ b ∧ '.' ∉ b) ∨ (∃ b e, file = b ++ '.' :: e ∧ '/' ∉ b ∧ '/' ∉ e ∧ '.' ∉ e) ∨
    (∃ d b, file = d ++ '/' :: b ∧ '/' ∉ b ∧ '.' ∉ d ++ b) ∨
    (∃ d b e, file = d ++ '/' :: (b ++ '.' :: e) ∧ '/' ∉ b ∧ '/' ∉ e ∧ '.' ∉ e) ∨
    (∃ a m b, file = a ++ '.' :: (m ++ '/' :: b) ∧ '.' ∉ m ∧ '/' ∉ b ∧ '.' ∉ b) := by
  have last : ∀ (c : Char) (s : List Char), c ∈ s → ∃ a e, s = a ++ c :: e ∧ c ∉ e := by
    intro c s
    induction s with
    | nil => intro h; cases h
    | cons x xs ih =>
      intro h
      by_cases hx : c ∈ xs
      · obtain ⟨a, e, rfl, he⟩ := ih hx
        exact ⟨x :: a, e, rfl, he⟩
      · rcases List.mem_cons.mp h with rfl | h
        · exact ⟨[], xs, rfl, hx⟩
        · exact absurd h hx
  by_cases hs : '/' ∈ file
  · obtain ⟨d, b, rfl, hb⟩ := last _ _ hs
    by_cases hd : '.' ∈ b
    · obtain ⟨b, e, rfl, he⟩ := last _ _ hd
      simp only [List.mem_append, List.mem_cons, not_or] at hb
      exact Or.inr (Or.inr (Or.inr (Or.inl ⟨d, b, e, rfl, hb.1, hb.2.2, he⟩)))
    · by_cases hdd : '.' ∈ d
      · obtain ⟨a, m, rfl, hm⟩ := last _ _ hdd
        exact Or.inr (Or.inr (Or.inr (Or.inr ⟨a, m, b, by simp, hm, hb, hd⟩)))
      · exact Or.inr (Or.inr (Or.inl ⟨d, b, rfl, hb, by simp [hd, hdd]⟩))
  · by_cases hd : '.' ∈ file
    · obtain ⟨b, e, rfl, he⟩ := last _ _ hd
      simp only [List.mem_append, List.mem_cons, not_or] at hs
      exact Or.inr (Or.inl ⟨b, e, rfl, hs.1, hs.2.2, he⟩)
    · exact Or.inl ⟨file, rfl, hs, hd⟩

/-- C119, a case: a stack of two tasks, the graph of the pool in a directory, and a path that starts with a dot. -/
theorem C119_case :
    listStack ["com".toList, "posture".toList] = "( \"com\", \"posture\", )".toList ∧
    Reads '"' '(' ')' (listStack ["com".toList, "posture".toList]) ["com".toList, "posture".toList] ∧
    listFeatures ["a".toList, "b".toList] = "['a','b',]".toList ∧
    genericName "/tmp/graph.dot".toList = .ok "/graph".toList ∧ genericName "graph.dot".toList = .ok "graph".toList ∧
    genericName "./graph".toList = .throw := by
  refine ⟨by decide, (C119_list _ (by unfold Simple; decide) _).mpr rfl, by decide, by decide, by decide, by decide⟩

end Verif.Texts
