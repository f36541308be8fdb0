import Verif.Errors.Model

/-!
# C117: what an exception says

The specification of a format is the relation `Renders`, one rule per conversion; a text without argument is rendered when it is another text of
which each percent sign was doubled.
-/

namespace Verif.Errors

/-! ## Specification -/

/-- The C string that begins a text. -/
def CString (s t : List Char) : Prop := '\x00' ∉ t ∧ (s = t ∨ ∃ r, s = t ++ '\x00' :: r)

/-- A format and its arguments are rendered by a text. -/
inductive Renders : List Char → List Arg → List Char → Prop
  | done (a : List Arg) : Renders [] a []
  | lit {c : Char} {f : List Char} {a : List Arg} {t : List Char} : c ≠ '%' → Renders f a t → Renders (c :: f) a (c :: t)
  | percent {f : List Char} {a : List Arg} {t : List Char} : Renders f a t → Renders ('%' :: '%' :: f) a ('%' :: t)
  | str {f : List Char} {a : List Arg} {t s s' : List Char} : CString s s' → Renders f a t →
      Renders ('%' :: 's' :: f) (.str s :: a) (s' ++ t)
  | int {f : List Char} {a : List Arg} {t : List Char} {i : Int} : Renders f a t →
      Renders ('%' :: 'd' :: f) (.int i :: a) ((toString i).toList ++ t)
  | dbl {f : List Char} {a : List Arg} {t : List Char} {p : Char} {x : Nat → List Char} : p.isDigit → Renders f a t →
      Renders ('%' :: '.' :: p :: 'f' :: f) (.dbl x :: a) (x (p.toNat - 48) ++ t)

/-- A text of which each percent sign is written twice. -/
def doubled (t : List Char) : List Char := t.flatMap fun c => if c = '%' then ['%', '%'] else [c]

/-! ## Lemmas -/

theorem cstr_spec (s : List Char) : CString s (cstr s) := by
  unfold cstr CString
  refine ⟨fun h => ?_, ?_⟩
  · have := List.all_takeWhile (p := fun c => decide (c ≠ '\x00')) (l := s)
    rw [List.all_eq_true] at this
    simpa using this _ h
  · induction s with
    | nil => exact Or.inl rfl
    | cons c cs ih =>
      by_cases hc : c = '\x00'
      · subst hc; exact Or.inr ⟨cs, by simp⟩
      · rw [List.takeWhile_cons]
        simp only [ne_eq, hc, not_false_eq_true, decide_true, if_true, List.cons_append, List.cons.injEq, true_and]
        simpa using ih

theorem cstr_unique {s t : List Char} (h : CString s t) : cstr s = t := by
  obtain ⟨h0, h | ⟨r, h⟩⟩ := h
  · subst h
    unfold cstr
    have := List.takeWhile_append_of_pos (p := fun c => decide (c ≠ '\x00')) (l₁ := s) (l₂ := []) (fun c hc => by
      simp only [decide_eq_true_eq]
      exact fun e => h0 (e ▸ hc))
    simpa using this
  · subst h
    unfold cstr
    rw [List.takeWhile_append_of_pos]
    · simp
    · intro c hc
      simp only [decide_eq_true_eq]
      exact fun e => h0 (e ▸ hc)

theorem cstr_id {s : List Char} (h : '\x00' ∉ s) : cstr s = s := cstr_unique ⟨h, Or.inl rfl⟩

theorem expand_of_renders {f : List Char} {a : List Arg} {t : List Char} (h : Renders f a t) : expand f a = .ok t := by
  induction h with
  | done a => rw [expand.eq_def]
  | lit hc _ ih => rw [expand.eq_def]; dsimp only; rw [if_pos hc, ih]; rfl
  | percent _ ih => rw [expand.eq_def]; dsimp only; rw [if_neg (by simp), if_pos rfl, ih]; rfl
  | str hs _ ih =>
    rw [expand.eq_def]; dsimp only; rw [if_neg (by simp), if_neg (by decide), if_pos rfl, ih, cstr_unique hs]; rfl
  | int _ ih =>
    rw [expand.eq_def]; dsimp only; rw [if_neg (by simp), if_neg (by decide), if_neg (by decide), if_pos rfl, ih]; rfl
  | dbl hp _ ih =>
    rw [expand.eq_def]; dsimp only
    rw [if_neg (by simp), if_neg (by decide), if_neg (by decide), if_neg (by decide), if_pos rfl]
    simp [hp, ih]

theorem renders_of_expand : ∀ (n : Nat) (f : List Char) (a : List Arg) (t : List Char), f.length ≤ n →
    expand f a = .ok t → Renders f a t := by
  intro n
  induction n with
  | zero =>
    intro f a t hn h
    have : f = [] := List.length_eq_zero_iff.mp (by omega)
    subst this
    rw [expand] at h
    cases h
    exact .done a
  | succ n ih =>
    intro f a t hn h
    cases f with
    | nil => rw [expand] at h; cases h; exact .done a
    | cons c cs =>
      simp only [List.length_cons] at hn
      rw [expand.eq_def] at h
      dsimp only at h
      by_cases hc : c ≠ '%'
      · rw [if_pos hc, Outcome.map_eq_ok] at h
        obtain ⟨u, hu, rfl⟩ := h
        exact .lit hc (ih _ _ _ (by omega) hu)
      · rw [if_neg hc] at h
        have hc : c = '%' := Classical.not_not.mp hc
        subst hc
        cases cs with
        | nil => cases h
        | cons d ds =>
          simp only [List.length_cons] at hn
          dsimp only at h
          by_cases h1 : d = '%'
          · rw [if_pos h1, Outcome.map_eq_ok] at h
            obtain ⟨u, hu, rfl⟩ := h
            subst h1
            exact .percent (ih _ _ _ (by omega) hu)
          · rw [if_neg h1] at h
            by_cases h2 : d = 's'
            · rw [if_pos h2] at h
              subst h2
              split at h
              · rw [Outcome.map_eq_ok] at h
                obtain ⟨u, hu, rfl⟩ := h
                exact .str (cstr_spec _) (ih _ _ _ (by omega) hu)
              · cases h
            · rw [if_neg h2] at h
              by_cases h3 : d = 'd'
              · rw [if_pos h3] at h
                subst h3
                split at h
                · rw [Outcome.map_eq_ok] at h
                  obtain ⟨u, hu, rfl⟩ := h
                  exact .int (ih _ _ _ (by omega) hu)
                · cases h
              · rw [if_neg h3] at h
                by_cases h4 : d = '.'
                · rw [if_pos h4] at h
                  subst h4
                  split at h
                  · rename_i p es
                    simp only [List.length_cons] at hn
                    by_cases h5 : p.isDigit
                    · rw [if_pos h5] at h
                      split at h
                      · rw [Outcome.map_eq_ok] at h
                        obtain ⟨u, hu, rfl⟩ := h
                        exact .dbl h5 (ih _ _ _ (by omega) hu)
                      · cases h
                    · rw [if_neg h5] at h; cases h
                  · cases h
                · rw [if_neg h4] at h; cases h

theorem expand_ne_throw : ∀ (n : Nat) (f : List Char) (a : List Arg), f.length ≤ n → expand f a ≠ .throw := by
  have hm : ∀ {x : Outcome (List Char)} {g : List Char → List Char}, x ≠ .throw → x.map g ≠ .throw := by
    intro x g h; cases x <;> simp_all
  intro n
  induction n with
  | zero =>
    intro f a hn
    have : f = [] := List.length_eq_zero_iff.mp (by omega)
    subst this
    rw [expand]; simp
  | succ n ih =>
    intro f a hn
    cases f with
    | nil => rw [expand]; simp
    | cons c cs =>
      simp only [List.length_cons] at hn
      rw [expand.eq_def]
      dsimp only
      split
      · exact hm (ih _ _ (by omega))
      · cases cs with
        | nil => simp
        | cons d ds =>
          simp only [List.length_cons] at hn
          dsimp only
          repeat' split
          all_goals first | exact hm (ih _ _ (by (try simp only [List.length_cons] at hn); omega)) | simp

theorem renders_nil {f t : List Char} : Renders f [] t ↔ f = doubled t := by
  constructor
  · intro h
    generalize ha : ([] : List Arg) = a at h
    induction h with
    | done => rfl
    | lit hc _ ih => unfold doubled at ih ⊢; simp [hc, ih ha]
    | percent _ ih => unfold doubled at ih ⊢; simp [ih ha]
    | str => cases ha
    | int => cases ha
    | dbl => cases ha
  · intro h
    subst h
    induction t with
    | nil => exact .done _
    | cons c cs ih =>
      by_cases hc : c = '%'
      · subst hc; exact .percent ih
      · have : doubled (c :: cs) = c :: doubled cs := by unfold doubled; simp [hc]
        rw [this]
        exact .lit hc ih

theorem null_doubled {t : List Char} : '\x00' ∈ doubled t ↔ '\x00' ∈ t := by
  unfold doubled
  rw [List.mem_flatMap]
  constructor
  · rintro ⟨c, hc, h⟩
    split at h
    · simp at h
    · simp only [List.mem_singleton] at h; rw [h]; exact hc
  · intro h
    exact ⟨_, h, by simp⟩

theorem doubled_plain {t : List Char} (h : '%' ∉ t) : doubled t = t := by
  induction t with
  | nil => rfl
  | cons c cs ih =>
    simp only [List.mem_cons, not_or] at h
    have : doubled (c :: cs) = c :: doubled cs := by unfold doubled; simp [Ne.symm h.1]
    rw [this, ih h.2]

theorem renders_lits (l : List Char) {f : List Char} {a : List Arg} {t : List Char} (h : '%' ∉ l) (hr : Renders f a t) :
    Renders (l ++ f) a (l ++ t) := by
  induction l with
  | nil => exact hr
  | cons c cs ih =>
    simp only [List.mem_cons, not_or] at h
    exact .lit (Ne.symm h.1) (ih h.2)

theorem take_null {t : List Char} {n : Nat} (h : '\x00' ∉ t) : cstr (t.take n) = t.take n :=
  cstr_id fun hm => h (List.mem_of_mem_take hm)

theorem int_text_chars (i : Int) : ∀ c ∈ (toString i).toList, c = '-' ∨ c.isDigit := by
  intro c hc
  rw [Int.toString_eq_repr, Int.repr_eq_if] at hc
  split at hc
  · simp only [Nat.toList_repr] at hc
    right; exact Nat.isDigit_of_mem_toDigits (by omega) (by omega) hc
  · simp only [String.toList_append, Nat.toList_repr, List.mem_append] at hc
    rcases hc with hc | hc
    · left; simpa using hc
    · right; exact Nat.isDigit_of_mem_toDigits (by omega) (by omega) hc

theorem int_text_injective {i j : Int} (h : (toString i).toList = (toString j).toList) : i = j := by
  have hd : ∀ n : Nat, '-' ∉ Nat.toDigits 10 n := fun n hn => by
    have := Nat.isDigit_of_mem_toDigits (by omega) (by omega) hn
    simp [Char.isDigit] at this
  have hn : ∀ {m n : Nat}, Nat.toDigits 10 m = Nat.toDigits 10 n → m = n := fun {m n} e => by
    have := congrArg (fun l => Nat.ofDigitChars 10 l 0) e
    simpa using this
  rw [Int.toString_eq_repr, Int.toString_eq_repr, Int.repr_eq_if, Int.repr_eq_if] at h
  split at h <;> split at h
  · simp only [Nat.toList_repr] at h
    have := hn h
    omega
  · simp only [String.toList_append, Nat.toList_repr] at h
    exact absurd (h ▸ List.mem_append_left _ (by decide)) (hd i.toNat)
  · simp only [String.toList_append, Nat.toList_repr] at h
    exact absurd (h ▸ List.mem_append_left _ (by decide)) (hd j.toNat)
  · simp only [String.toList_append, Nat.toList_repr, List.append_cancel_left_eq] at h
    have := hn h
    omega

/-! ## Theorems -/

/-- C117: the codes of the classes are disjoint and are those of the table. -/
theorem C117_codes (k l : Kind) (i j : Nat) (hi : i < k.count) (hj : j < l.count) (h : k.base + i = l.base + j) :
    k = l ∧ i = j := by
  cases k <;> cases l <;> simp [Kind.base, Kind.count] at * <;> omega

/-- C117: the codes of each class. -/
theorem C117_code_table (k : Kind) (n : Nat) : (∃ i < k.count, n = k.base + i) ↔
    (k = .abstract ∧ n = 0) ∨ (k = .signal ∧ 100 ≤ n ∧ n ≤ 106) ∨ (k = .task ∧ 200 ≤ n ∧ n ≤ 205) ∨
    (k = .feature ∧ 300 ≤ n ∧ n ≤ 302) ∨ (k = .factory ∧ 400 ≤ n ∧ n ≤ 409) ∨ (k = .dynamic ∧ 500 ≤ n ∧ n ≤ 505) ∨
    (k = .tools ∧ 700 ≤ n ∧ n ≤ 703) := by
  have hr : (∃ i < k.count, n = k.base + i) ↔ k.base ≤ n ∧ n < k.base + k.count :=
    ⟨fun ⟨i, hi, h⟩ => by omega, fun h => ⟨n - k.base, by omega, by omega⟩⟩
  rw [hr]
  cases k <;> simp only [Kind.base, Kind.count, reduceCtorEq, false_and, true_and, or_false, false_or] <;> omega

/-- C117: the text of an exception tells its class, its code and its message. -/
theorem C117_print_injective (e f : Exc) (h : print e = print f) : e = f := by
  obtain ⟨k, c, m⟩ := e
  obtain ⟨l, d, n⟩ := f
  unfold print at h
  simp only [List.append_assoc] at h
  have hkl : k = l := by
    have := congrArg (List.take 2) h
    cases k <;> cases l <;> simp [Kind.name] at this ⊢
  subst hkl
  simp only [List.append_cancel_left_eq] at h
  have hb : ∀ (i : Int), ∀ x ∈ (toString i).toList, (decide (x ≠ ']')) = true := by
    intro i x hx
    simp only [decide_eq_true_eq]
    rcases int_text_chars i x hx with rfl | hd
    · decide
    · rintro rfl; simp [Char.isDigit] at hd
  have h1 := congrArg (List.takeWhile (fun x => decide (x ≠ ']'))) h
  rw [List.takeWhile_append_of_pos (hb c), List.takeWhile_append_of_pos (hb d)] at h1
  have hs : ∀ r : List Char, List.takeWhile (fun x => decide (x ≠ ']')) ("]:  ".toList ++ r) = [] := fun r => by simp
  rw [hs, hs, List.append_nil, List.append_nil] at h1
  have hc := int_text_injective h1
  subst hc
  simp only [List.append_cancel_left_eq, List.append_cancel_right_eq] at h
  rw [h]

/-- C117: the text of an exception. -/
theorem C117_print (c : Int) (m : List Char) :
    print (make .feature c m) = "FeatureError [#".toList ++ (toString c).toList ++ "]:  ".toList ++ m ++ ['\n'] ∧
    print (make .task c m) = "TaskError [#".toList ++ (toString c).toList ++ "]:  ".toList ++ m ++ ['\n'] ∧
    print (make .signal c m) = "SignalError [#".toList ++ (toString c).toList ++ "]:  ".toList ++ m ++ ['\n'] ∧
    print (make .factory c m) = "FactoryError [#".toList ++ (toString c).toList ++ "]:  ".toList ++ m ++ ['\n'] ∧
    print (make .dynamic c m) = "DynamicError [#".toList ++ (toString c).toList ++ "]:  ".toList ++ m ++ ['\n'] ∧
    print (make .tools c m) = "ToolsError [#".toList ++ (toString c).toList ++ "]:  ".toList ++ m ++ ['\n'] ∧
    print (make .abstract c m) = "AbstractError [#".toList ++ (toString c).toList ++ "]:  ".toList ++ m ++ ['\n'] := by
  have e : ∀ (k : Kind) (s : String), s.toList = k.name.toList ++ "Error [#".toList →
      print (make k c m) = s.toList ++ (toString c).toList ++ "]:  ".toList ++ m ++ ['\n'] := fun k s h => by rw [h]; rfl
  exact ⟨e _ _ (by decide), e _ _ (by decide), e _ _ (by decide), e _ _ (by decide), e _ _ (by decide), e _ _ (by decide),
    e _ _ (by decide)⟩

/-- C117: what is read of an exception made of a message is the message, if it has no null character. -/
theorem C117_what (k : Kind) (c : Int) (m t : List Char) : what (make k c m) = t ↔ CString m t := by
  unfold what make
  exact ⟨fun h => h ▸ cstr_spec m, cstr_unique⟩

/-- C117: an exception made of a format is defined exactly if the format is rendered with the arguments; its message is then the one given
followed by at most 255 characters of the rendering, for signals, factories, dynamics and tools. -/
theorem C117_format (k : Kind) (hk : k ≠ .task ∧ k ≠ .feature) (c : Int) (m f f' : List Char) (a : List Arg) (hf : CString f f') (e : Exc) :
    makeFormat k c m f a = .ok e ↔ ∃ t b, Renders f' a t ∧ CString (t.take 255) b ∧ e = ⟨k, c, m ++ b⟩ := by
  unfold makeFormat vsnprintf
  rw [cstr_unique hf]
  simp only [hk, or_self, if_false, Outcome.map_eq_ok, Nat.add_one_sub_one]
  constructor
  · rintro ⟨b, ⟨t, ht, rfl⟩, rfl⟩
    exact ⟨t, _, renders_of_expand _ _ _ _ (Nat.le_refl _) ht, cstr_spec _, rfl⟩
  · rintro ⟨t, b, ht, hb, rfl⟩
    exact ⟨b, ⟨t, expand_of_renders ht, cstr_unique hb⟩, rfl⟩

/-- C117: it is undefined otherwise; it never throws. -/
theorem C117_format_undefined (k : Kind) (c : Int) (m f f' : List Char) (a : List Arg) (hf : CString f f') :
    makeFormat k c m f a = .ub ↔ ¬ ∃ t, Renders f' a t := by
  unfold makeFormat vsnprintf
  rw [cstr_unique hf]
  have hn := expand_ne_throw _ f' a (Nat.le_refl _)
  cases hx : expand f' a with
  | ok t => simp; exact ⟨t, renders_of_expand _ _ _ _ (Nat.le_refl _) hx⟩
  | throw => exact absurd hx hn
  | ub =>
    simp only [Outcome.map_ub, true_iff]
    rintro ⟨t, ht⟩
    rw [expand_of_renders ht] at hx
    cases hx

/-- C117, counterexample: for tasks and features the message given is lost, only the rendering is kept. -/
theorem C117_message_lost_counterexample (k : Kind) (hk : k = .task ∨ k = .feature) (c : Int) (m f f' : List Char) (a : List Arg)
    (hf : CString f f') (e : Exc) :
    makeFormat k c m f a = .ok e ↔ ∃ t b, Renders f' a t ∧ CString (t.take 255) b ∧ e = ⟨k, c, b⟩ := by
  unfold makeFormat vsnprintf
  rw [cstr_unique hf]
  simp only [hk, if_true, Outcome.map_eq_ok, Nat.add_one_sub_one]
  constructor
  · rintro ⟨b, ⟨t, ht, rfl⟩, rfl⟩
    exact ⟨t, _, renders_of_expand _ _ _ _ (Nat.le_refl _) ht, cstr_spec _, rfl⟩
  · rintro ⟨t, b, ht, hb, rfl⟩
    exact ⟨b, ⟨t, expand_of_renders ht, cstr_unique hb⟩, rfl⟩

/-- C117: without arguments a format is rendered exactly when each of its percent signs is doubled. -/
theorem C117_no_arguments (f t : List Char) : Renders f [] t ↔ f = doubled t := renders_nil

/-- C117: an exception that goes through nested calls keeps its code and its message; it keeps its class exactly if it is abstract or if none
of the calls catches it to throw it again. -/
theorem C117_rethrow (cs : List Bool) (e : Exc) :
    (through cs e).code = e.code ∧ (through cs e).message = e.message ∧
    ((through cs e).kind = e.kind ↔ e.kind = .abstract ∨ true ∉ cs) ∧ (true ∈ cs → (through cs e).kind = .abstract) := by
  have key : ∀ (cs : List Bool) (e : Exc), through cs e = if true ∈ cs then ⟨.abstract, e.code, e.message⟩ else e := by
    intro cs
    induction cs with
    | nil => intro e; simp [through]
    | cons b bs ih =>
      intro e
      have h : through (b :: bs) e = through bs (if b then rethrow e else e) := rfl
      rw [h, ih]
      cases b
      · simp
      · simp [rethrow]
  rw [key]
  by_cases h : true ∈ cs
  · simp only [h, if_true, not_true_eq_false, or_false, implies_true, and_true, true_and]
    exact ⟨Eq.symm, Eq.symm⟩
  · simp [h]

/-- C117, counterexample: the error of a feature whose reference is too short is its name only, and nothing of the sentence; it is undefined
when the name has a percent sign that is not doubled. -/
theorem C117_size_error_counterexample (name : List Char) (h0 : '\x00' ∉ name) :
    (∀ e, sizeError name = .ok e ↔ ∃ t, name = doubled t ∧ e = ⟨.feature, 302, t.take 255⟩) ∧
    (sizeError name = .ub ↔ ¬ ∃ t, name = doubled t) ∧ ('%' ∉ name → sizeError name = .ok ⟨.feature, 302, name.take 255⟩) := by
  have hf : CString (cstr name) name := by rw [cstr_id h0]; exact ⟨h0, Or.inl rfl⟩
  have h1 : ∀ e, sizeError name = .ok e ↔ ∃ t, name = doubled t ∧ e = ⟨.feature, 302, t.take 255⟩ := by
    intro e
    unfold sizeError
    rw [C117_message_lost_counterexample .feature (Or.inr rfl) _ _ _ _ _ hf]
    simp only [renders_nil]
    constructor
    · rintro ⟨t, b, ht, hb, rfl⟩
      have h0' : '\x00' ∉ t := by rw [ht, null_doubled] at h0; exact h0
      exact ⟨t, ht, by rw [← cstr_unique hb, take_null h0']⟩
    · rintro ⟨t, ht, rfl⟩
      have h0' : '\x00' ∉ t := by rw [ht, null_doubled] at h0; exact h0
      exact ⟨t, _, ht, ⟨fun hm => h0' (List.mem_of_mem_take hm), Or.inl rfl⟩, rfl⟩
  refine ⟨h1, ?_, fun hp => (h1 _).mpr ⟨name, (doubled_plain hp).symm, rfl⟩⟩
  unfold sizeError
  rw [C117_format_undefined _ _ _ _ _ _ hf]
  simp only [renders_nil]

/-- C117, counterexample: the two errors of a visual point say the depth and not what is wrong. -/
theorem C117_visual_counterexample (z : Nat → List Char) (h1 : '\x00' ∉ z 1) (h3 : '\x00' ∉ z 3)
    (l1 : (z 1).length ≤ 240) (l3 : (z 3).length ≤ 240) :
    behindCamera z = .ok ⟨.feature, 301, " (Z=".toList ++ z 1 ++ ").".toList⟩ ∧
    nullDepth z = .ok ⟨.feature, 301, " (Z=".toList ++ z 3 ++ ")".toList⟩ := by
  constructor
  · unfold behindCamera
    rw [C117_message_lost_counterexample .feature (Or.inr rfl) _ _ _ " (Z=%.1f).".toList _ ⟨by decide, Or.inl rfl⟩]
    refine ⟨" (Z=".toList ++ (z 1 ++ ").".toList), " (Z=".toList ++ (z 1 ++ ").".toList), ?_, ⟨?_, Or.inl ?_⟩, by simp⟩
    · exact renders_lits " (Z=".toList (by decide) (.dbl (p := '1') (by decide) (renders_lits ").".toList (by decide) (.done _)))
    · simp [h1]
    · rw [List.take_of_length_le]
      simp only [List.length_append]
      have : " (Z=".toList.length = 4 ∧ ").".toList.length = 2 := by decide
      omega
  · unfold nullDepth
    rw [C117_message_lost_counterexample .feature (Or.inr rfl) _ _ _ " (Z=%.3f)".toList _ ⟨by decide, Or.inl rfl⟩]
    refine ⟨" (Z=".toList ++ (z 3 ++ ")".toList), " (Z=".toList ++ (z 3 ++ ")".toList), ?_, ⟨?_, Or.inl ?_⟩, by simp⟩
    · exact renders_lits " (Z=".toList (by decide) (.dbl (p := '3') (by decide) (renders_lits ")".toList (by decide) (.done _)))
    · simp [h3]
    · rw [List.take_of_length_le]
      simp only [List.length_append]
      have : " (Z=".toList.length = 4 ∧ ")".toList.length = 1 := by decide
      omega

theorem named (m pre post name : List Char) (c : Int) (h0 : '\x00' ∉ name) (h1 : '%' ∉ pre) (h2 : '%' ∉ post)
    (h3 : '\x00' ∉ pre) (h4 : '\x00' ∉ post) :
    makeFormat .factory c m (pre ++ '%' :: 's' :: post) [.str name] = .ok ⟨.factory, c, m ++ (pre ++ (name ++ post)).take 255⟩ := by
  have hz : '\x00' ∉ pre ++ (name ++ post) := by simp [h0, h3, h4]
  rw [C117_format .factory ⟨by simp, by simp⟩ c m _ (pre ++ '%' :: 's' :: post) _ ⟨by simp [h3, h4], Or.inl rfl⟩]
  refine ⟨pre ++ (name ++ post), (pre ++ (name ++ post)).take 255, ?_, ⟨fun hm => hz (List.mem_of_mem_take hm), Or.inl rfl⟩, rfl⟩
  refine renders_lits pre h1 (.str ⟨h0, Or.inl rfl⟩ ?_)
  have := renders_lits post h2 (.done [])
  simpa using this

/-- C117: the errors of the pool say what is wrong and then the name, cut so that the part that has the name has at most 255 characters; the
name can have any character but the null one. -/
theorem C117_pool (name : List Char) (h0 : '\x00' ∉ name) :
    unknownTask name = .ok ⟨.factory, 401, "Unknown task.".toList ++ (" (while calling <".toList ++ (name ++ ">)".toList)).take 255⟩ ∧
    unknownFeature name = .ok ⟨.factory, 401, "Unknown feature.".toList ++ (" (while calling <".toList ++ (name ++ ">)".toList)).take 255⟩ ∧
    taskConflict name = .ok ⟨.factory, 407, "Another task already defined with the same name. ".toList ++
      ("Task name is <".toList ++ (name ++ ">.".toList)).take 255⟩ ∧
    featureConflict name = .ok ⟨.factory, 407, "Another feature already defined with the same name. ".toList ++
      ("Feature name is <".toList ++ (name ++ ">.".toList)).take 255⟩ :=
  ⟨named _ " (while calling <".toList ">)".toList name 401 h0 (by decide) (by decide) (by decide) (by decide),
   named _ " (while calling <".toList ">)".toList name 401 h0 (by decide) (by decide) (by decide) (by decide),
   named _ "Task name is <".toList ">.".toList name 407 h0 (by decide) (by decide) (by decide) (by decide),
   named _ "Feature name is <".toList ">.".toList name 407 h0 (by decide) (by decide) (by decide) (by decide)⟩

/-- C117, counterexample: two features of which the long names differ at the end have the same error in the pool. -/
theorem C117_truncation_counterexample (l a b : List Char) (hl : 238 ≤ l.length) (h : '\x00' ∉ l ∧ '\x00' ∉ a ∧ '\x00' ∉ b) :
    unknownFeature (l ++ a) = unknownFeature (l ++ b) := by
  rw [(C117_pool _ (by simp [h])).2.1, (C117_pool _ (by simp [h])).2.1]
  have ht : ∀ c, (" (while calling <".toList ++ ((l ++ c) ++ ">)".toList)).take 255 = (" (while calling <".toList ++ l).take 255 := by
    intro c
    have : " (while calling <".toList.length = 17 := by decide
    rw [List.append_assoc, ← List.append_assoc, List.take_append_of_le_length (by rw [List.length_append]; omega)]
  rw [ht, ht]

/-- C117, example: the error of a feature named `100%x` is undefined, that of `wrist` says only `wrist`. -/
theorem C117_case : sizeError "100%x".toList = .ub ∧ sizeError "wrist".toList = .ok ⟨.feature, 302, "wrist".toList⟩ ∧
    print ⟨.feature, 302, "wrist".toList⟩ = "FeatureError [#302]:  wrist\n".toList ∧
    print (through [false, true] ⟨.feature, 302, "wrist".toList⟩) = "AbstractError [#302]:  wrist\n".toList := by
  refine ⟨?_, (C117_size_error_counterexample "wrist".toList (by decide)).2.2 (by decide), by decide, by decide⟩
  rw [(C117_size_error_counterexample "100%x".toList (by decide)).2.1]
  rintro ⟨t, ht⟩
  have : ∀ t : List Char, doubled t ≠ ['%', 'x'] ∧ doubled t ≠ ['0', '%', 'x'] ∧ doubled t ≠ ['0', '0', '%', 'x'] ∧
      doubled t ≠ ['1', '0', '0', '%', 'x'] := by
    have hd : ∀ (c : Char) (t : List Char), doubled (c :: t) = (if c = '%' then ['%', '%'] else [c]) ++ doubled t := fun _ _ => rfl
    have h1 : ∀ t : List Char, doubled t ≠ ['%', 'x'] := by
      intro t h
      cases t with
      | nil => cases h
      | cons c t =>
        rw [hd] at h
        split at h
        · simp at h
        · rename_i hc; simp at h; exact hc h.1
    have h2 : ∀ (d : Char) (l : List Char), d ≠ '%' → (∀ t, doubled t ≠ l) → ∀ t, doubled t ≠ d :: l := by
      intro d l hdp hl t h
      cases t with
      | nil => cases h
      | cons c t =>
        rw [hd] at h
        split at h
        · simp only [List.cons_append, List.cons.injEq] at h; exact hdp h.1.symm
        · simp only [List.cons_append, List.cons.injEq, List.nil_append] at h; exact hl t h.2
    intro t
    exact ⟨h1 t, h2 _ _ (by decide) h1 t, h2 _ _ (by decide) (h2 _ _ (by decide) h1) t,
      h2 _ _ (by decide) (h2 _ _ (by decide) (h2 _ _ (by decide) h1)) t⟩
  exact (this t).2.2.2 ht.symm

end Verif.Errors
