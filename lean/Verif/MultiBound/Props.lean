import Verif.MultiBound.Digits
import Verif.Common.Lists

/-!
# Properties C05 and C06 of bounds
-/

namespace Verif.MultiBound

variable {R : Type}

/-! ## C05: a bound answers exactly for what was set -/

/-- The call concerns the side `s` of a double bound. -/
def Op.about (s : Side) : Op R → Prop
  | .setSingle _ => False
  | .setDouble s' _ => s' = s
  | .unsetDouble s' => s' = s

/-- The call makes the bound a single bound. -/
def Op.isSingle : Op R → Prop
  | .setSingle _ => True
  | _ => False

theorem getDouble_step (m : MultiBound R) (op : Op R) (s : Side) :
    getDoubleBound (step m op) s =
      match op with
      | .setSingle _ => .throw
      | .setDouble s' v => if s' = s then .ok v else getDoubleBound m s
      | .unsetDouble s' => if s' = s then .throw else getDoubleBound m s := by
  cases op with
  | setSingle v => simp [step, setSingleBound, getDoubleBound]
  | setDouble s' v =>
    cases hm : m.mode <;> cases s' <;> cases s <;>
      simp [step, setDoubleBound, toDouble, getDoubleBound, hm]
  | unsetDouble s' =>
    cases hm : m.mode <;> cases s' <;> cases s <;>
      simp [step, unsetDoubleBound, getDoubleBound, hm]

theorem run_snoc (m : MultiBound R) (ops : List (Op R)) (op : Op R) :
    run m (ops ++ [op]) = step (run m ops) op := by
  simp [run]

/-- C05. After any history on a bound built from a single value, reading the side `s` returns `v`
exactly when the history has a call `setDoubleBound(s, v)` followed by no call about `s` and no switch
back to the single mode. -/
theorem C05_double_reads_last_set (zero x0 : R) (ops : List (Op R)) (s : Side) (v : R) :
    getDoubleBound (run (ofSingle zero x0) ops) s = .ok v ↔
      ∃ pre post, ops = pre ++ .setDouble s v :: post ∧
        ∀ op ∈ post, ¬ op.about s ∧ ¬ op.isSingle := by
  induction ops using snoc_induction with
  | nil => simp [run, ofSingle, getDoubleBound]
  | snoc ops op ih =>
    rw [run_snoc, getDouble_step]
    simp only [concat_eq_append_cons]
    cases op with
    | setSingle w =>
      simp only [reduceCtorEq, false_iff]
      rintro ⟨pre, post, h, hp⟩
      rcases h with ⟨_, _, h⟩ | ⟨post', rfl, _⟩
      · cases h
      · exact (hp (.setSingle w) (by simp)).2 trivial
    | setDouble s' w =>
      by_cases hs : s' = s
      · subst hs
        simp only [if_true, Outcome.ok.injEq]
        constructor
        · rintro rfl
          exact ⟨ops, [], .inl ⟨rfl, rfl, rfl⟩, by simp⟩
        · rintro ⟨pre, post, h, hp⟩
          rcases h with ⟨_, _, h⟩ | ⟨post', rfl, _⟩
          · injection h
          · exact absurd rfl (hp (.setDouble s' w) (by simp)).1
      · simp only [hs, if_false, ih]
        constructor
        · rintro ⟨pre, post, rfl, hp⟩
          refine ⟨pre, post ++ [.setDouble s' w], .inr ⟨post, rfl, rfl⟩, ?_⟩
          intro op hop
          simp only [List.mem_append, List.mem_singleton] at hop
          rcases hop with hop | rfl
          · exact hp op hop
          · exact ⟨hs, id⟩
        · rintro ⟨pre, post, h, hp⟩
          rcases h with ⟨_, _, h⟩ | ⟨post', rfl, h⟩
          · injection h with h1 h2; exact absurd h1 hs
          · exact ⟨pre, post', h, fun op hop => hp op (by simp [hop])⟩
    | unsetDouble s' =>
      by_cases hs : s' = s
      · subst hs
        simp only [if_true, reduceCtorEq, false_iff]
        rintro ⟨pre, post, h, hp⟩
        rcases h with ⟨_, _, h⟩ | ⟨post', rfl, _⟩
        · cases h
        · exact absurd rfl (hp (.unsetDouble s') (by simp)).1
      · simp only [hs, if_false, ih]
        constructor
        · rintro ⟨pre, post, rfl, hp⟩
          refine ⟨pre, post ++ [.unsetDouble s'], .inr ⟨post, rfl, rfl⟩, ?_⟩
          intro op hop
          simp only [List.mem_append, List.mem_singleton] at hop
          rcases hop with hop | rfl
          · exact hp op hop
          · exact ⟨hs, id⟩
        · rintro ⟨pre, post, h, hp⟩
          rcases h with ⟨_, _, h⟩ | ⟨post', rfl, h⟩
          · cases h
          · exact ⟨pre, post', h, fun op hop => hp op (by simp [hop])⟩

/-- C05. Reading the single value returns the last single value exactly when no double-bound call came
after it. -/
theorem C05_single_reads_last_set (zero x0 : R) (ops : List (Op R)) (v : R) :
    getSingleBound (run (ofSingle zero x0) ops) = .ok v ↔
      (ops = [] ∧ v = x0) ∨ ∃ pre, ops = pre ++ [.setSingle v] := by
  induction ops using snoc_induction with
  | nil =>
    simp only [run, List.foldl_nil, ofSingle, getSingleBound, ne_eq, not_true, if_false,
      Outcome.ok.injEq, true_and, List.nil_eq, List.append_eq_nil_iff, List.cons_ne_nil,
      and_false, exists_false, or_false]
    exact eq_comm
  | snoc ops op ih =>
    rw [run_snoc]
    have hne : ops ++ [op] ≠ [] := by simp
    simp only [hne, false_and, false_or]
    cases op with
    | setSingle w =>
      simp only [step, setSingleBound, getSingleBound, ne_eq, not_true, if_false, Outcome.ok.injEq]
      constructor
      · rintro rfl; exact ⟨ops, rfl⟩
      · rintro ⟨pre, h⟩
        have := (List.append_inj' h (by simp)).2
        simpa using this
    | setDouble s w =>
      have : getSingleBound (step (run (ofSingle zero x0) ops) (.setDouble s w)) = .throw := by
        cases s <;> cases hm : (run (ofSingle zero x0) ops).mode <;>
          simp [step, setDoubleBound, toDouble, getSingleBound, hm]
      rw [this]
      simp only [reduceCtorEq, false_iff]
      rintro ⟨pre, h⟩
      have := (List.append_inj' h (by simp)).2
      simp at this
    | unsetDouble s =>
      have : getSingleBound (step (run (ofSingle zero x0) ops) (.unsetDouble s)) = .throw := by
        cases s <;> cases hm : (run (ofSingle zero x0) ops).mode <;>
          simp [step, unsetDoubleBound, getSingleBound, hm]
      rw [this]
      simp only [reduceCtorEq, false_iff]
      rintro ⟨pre, h⟩
      have := (List.append_inj' h (by simp)).2
      simp at this

/-- C05. Every other reading raises an exception: a getter returns a value or throws, it is never
undefined behaviour, and `getDoubleBoundSetup` announces exactly which sides can be read. -/
theorem C05_getters_value_or_throw (m : MultiBound R) (s : Side) :
    ((∃ v, getDoubleBound m s = .ok v) ∨ getDoubleBound m s = .throw) ∧
    ((∃ v, getSingleBound m = .ok v) ∨ getSingleBound m = .throw) ∧
    (getDoubleBoundSetup m s = .ok true ↔ ∃ v, getDoubleBound m s = .ok v) ∧
    ((∃ v, getSingleBound m = .ok v) ↔ getMode m = .single) := by
  rcases m with ⟨md, a, b, c, d, e⟩
  cases md <;> cases s <;> cases d <;> cases e <;>
    simp [getDoubleBound, getSingleBound, getDoubleBoundSetup, getMode]

/-- C05. The constructors with two values or one side read as the corresponding histories. -/
theorem C05_constructors (zero x xi xs : R) (s s' : Side) :
    getDoubleBound (ofDouble zero xi xs) s =
      getDoubleBound (run (ofSingle zero x) [.setDouble .inf xi, .setDouble .sup xs]) s ∧
    getDoubleBound (ofSide zero x s') s =
      getDoubleBound (run (ofSingle zero zero) [.setDouble s' x]) s := by
  cases s <;> cases s' <;> exact ⟨rfl, rfl⟩

example : getDoubleBound (run (ofSingle (0 : Int) 1)
      [.setDouble .inf 3, .setSingle 4, .setDouble .sup 5, .unsetDouble .inf]) .sup = .ok 5 ∧
    getDoubleBound (run (ofSingle (0 : Int) 1)
      [.setDouble .inf 3, .setSingle 4, .setDouble .sup 5, .unsetDouble .inf]) .inf = .throw := by
  decide

/-! ## C06: text form -/

/-- Everything a user can read from a bound: its mode, its single value, its two sides. -/
def readings (m : MultiBound R) : Mode × Outcome R × Outcome R × Outcome R :=
  (getMode m, getSingleBound m, getDoubleBound m .inf, getDoubleBound m .sup)

/-- The numbers shown by the bound are printed exactly by the library. -/
def ExactOn (T : NumText R) (m : MultiBound R) : Prop :=
  match m.mode with
  | .single => T.Exact m.boundSingle
  | .double => (m.boundInfSetup = true → T.Exact m.boundInf) ∧
      (m.boundSupSetup = true → T.Exact m.boundSup)

/-- A text that can follow a number: the end, or one of the separators used by the format. -/
def Follow (rest : List Char) : Prop := rest = [] ∨ ∃ c r, rest = c :: r ∧ c ∈ [',', ')', ']']

theorem parseSide_number (T : NumText R) (zero x : R) (val : Option R) (hx : T.Exact x) (c : Char) (r : List Char)
    (hc : c = ',' ∨ c = ')') :
    parseSide T zero val (some (T.show_ x ++ c :: r)) = .ok (some x, some (c :: r)) := by
  have hsc := hx.scan_show (c :: r) (.inr ⟨c, r, rfl, by rcases hc with rfl | rfl <;> simp⟩)
  have hnl := hx.no_newline
  have hdd := hx.no_dashes
  have hld := hx.no_lone_dash
  cases hs : T.show_ x with
  | nil => exact absurd hs hx.ne_nil
  | cons a l =>
    rw [hs] at hsc hnl hdd hld
    cases l with
    | nil =>
      have ha : a ≠ '\n' := hnl a (by simp)
      have hcn : c ≠ '\n' := by rcases hc with rfl | rfl <;> decide
      have hcd : c ≠ '-' := by rcases hc with rfl | rfl <;> decide
      simp only [List.cons_append, List.nil_append] at hsc ⊢
      simp [parseSide, ha, hcn, hcd, hsc]
    | cons b l =>
      have ha : a ≠ '\n' := hnl a (by simp)
      have hb : b ≠ '\n' := hnl b (by simp)
      have hab : ¬ (a = '-' ∧ b = '-') := by
        rintro ⟨rfl, rfl⟩; exact hdd l rfl
      simp only [List.cons_append] at hsc ⊢
      simp [parseSide, ha, hb, hab, hsc]

theorem parseSide_dashes (T : NumText R) (zero : R) (val : Option R) (r : List Char) :
    parseSide T zero val (some ('-' :: '-' :: r)) = .ok (none, some r) := by
  simp [parseSide]

theorem expect_self (c : Char) (r : List Char) : expect c (some (c :: r)) = .ok (some r) := by
  simp [expect, getc]

/-- C06. Printing a bound and parsing the text into any object `m0` succeeds, consumes exactly the
printed text and restores everything that can be read from the bound. The hypothesis says that the
numbers shown are printed without loss (`C06_round_trip_int` discharges it for integers). -/
theorem C06_round_trip_partial (T : NumText R) (zero : R) (m m0 : MultiBound R) (hm : ExactOn T m)
    (rest : List Char) (hrest : Follow rest) :
    ∃ m', parse T zero m0 (some (print T m ++ rest)) = .ok (m', some rest) ∧
      readings m' = readings m := by
  rcases m with ⟨md, a, b, c, d, e⟩
  cases md with
  | single =>
    simp only [ExactOn] at hm
    refine ⟨setSingleBound m0 a, ?_, ?_⟩
    · have hsc := hm.scan_show rest hrest
      simp only [print]
      cases hs : T.show_ a with
      | nil => exact absurd hs hm.ne_nil
      | cons x l =>
        have hx : x ≠ '(' := hm.head_ne_paren x l hs
        rw [hs] at hsc
        simp only [List.cons_append] at hsc ⊢
        simp [parse, getc, hx, hsc]
    · simp [readings, setSingleBound, getMode, getSingleBound, getDoubleBound]
  | double =>
    simp only [ExactOn] at hm
    obtain ⟨h1, h2⟩ := hm
    refine ⟨storeSide (storeSide m0 .inf (if e then some c else none)) .sup
      (if d then some b else none), ?_, ?_⟩
    · have step1 : ∀ tail, parseSide T zero none
          (some ((if e = true then T.show_ c else ['-', '-']) ++ ',' :: tail))
          = .ok (if e then some c else none, some (',' :: tail)) := by
        intro tail
        cases e with
        | false => simpa using parseSide_dashes T zero none (',' :: tail)
        | true => simpa using parseSide_number T zero c none (h1 rfl) ',' tail (.inl rfl)
      have step2 : ∀ val tail, parseSide T zero val
          (some ((if d = true then T.show_ b else ['-', '-']) ++ ')' :: tail))
          = .ok (if d then some b else none, some (')' :: tail)) := by
        intro val tail
        cases d with
        | false => simpa using parseSide_dashes T zero val (')' :: tail)
        | true => simpa using parseSide_number T zero b val (h2 rfl) ')' tail (.inr rfl)
      have hp : print T ⟨.double, a, b, c, d, e⟩ ++ rest =
          '(' :: ((if e = true then T.show_ c else ['-', '-']) ++
            ',' :: ((if d = true then T.show_ b else ['-', '-']) ++ ')' :: rest)) := by
        simp [print]
      rw [hp]
      simp [parse, getc, step1, expect_self, step2]
    · rcases m0 with ⟨md0, a0, b0, c0, d0, e0⟩
      cases md0 <;> cases d <;> cases e <;>
        simp [readings, storeSide, setDoubleBound, unsetDoubleBound, toDouble, getMode,
          getSingleBound, getDoubleBound]

/-- C06 for integral numbers, with no hypothesis left. -/
theorem C06_round_trip_int (m m0 : MultiBound Int) (rest : List Char) (hrest : Follow rest) :
    ∃ m', parse intText 0 m0 (some (print intText m ++ rest)) = .ok (m', some rest) ∧
      readings m' = readings m := by
  refine C06_round_trip_partial intText 0 m m0 ?_ rest hrest
  unfold ExactOn
  split
  · exact intText_exact _
  · exact ⟨fun _ => intText_exact _, fun _ => intText_exact _⟩

/-- The number reader takes its number from the head of the text. -/
def TakesPrefix (T : NumText R) : Prop := ∀ s v r, T.scan s = some (v, r) → ∃ u, s = u ++ r

/-- The text `u`, followed by `tail`, is one side of a double bound: `--` for no bound, or a number that
ends just before `tail`. -/
def IsSide (T : NumText R) (u tail : List Char) (b : Outcome R) : Prop :=
  (u = ['-', '-'] ∧ b = .throw) ∨ ∃ v, T.scan (u ++ tail) = some (v, tail) ∧ b = .ok v

theorem parseSide_ok (T : NumText R) (hT : TakesPrefix T) (zero : R) (val : Option R) (t : List Char)
    (b : Option R) (tail : List Char) (h : parseSide T zero val (some t) = .ok (b, some tail)) :
    ∃ u, t = u ++ tail ∧ ((u = ['-', '-'] ∧ b = none) ∨
      ∃ v, T.scan (u ++ tail) = some (v, tail) ∧ b = some v) := by
  have hst : parseSide.stale val ≠ .ok (b, some tail) := by
    cases val <;> simp [parseSide.stale]
  match t, h with
  | [], h => exact absurd h hst
  | [_], h => exact absurd h hst
  | c0 :: c1 :: cs, h =>
    simp only [parseSide] at h
    split at h
    · exact absurd h hst
    · split at h
      · rename_i hd
        obtain ⟨rfl, rfl⟩ := hd
        simp only [Outcome.ok.injEq, Prod.mk.injEq, Option.some.injEq] at h
        obtain ⟨rfl, rfl⟩ := h
        exact ⟨['-', '-'], rfl, .inl ⟨rfl, rfl⟩⟩
      · split at h
        · rename_i v rest hs
          simp only [Outcome.ok.injEq, Prod.mk.injEq, Option.some.injEq] at h
          obtain ⟨rfl, rfl⟩ := h
          obtain ⟨u, hu⟩ := hT _ _ _ hs
          exact ⟨u, hu, .inr ⟨v, by rw [← hu]; exact hs, rfl⟩⟩
        · simp at h

theorem expect_ok (c : Char) (s : Stream) (s' : Stream) (h : expect c s = .ok s') :
    ∃ r, s = some (c :: r) ∧ s' = some r := by
  match s, h with
  | none, h => simp [expect, getc] at h
  | some [], h => simp [expect, getc] at h
  | some (a :: r), h =>
    simp only [expect, getc] at h
    split at h
    · simp at h
    · rename_i ha
      simp only [Outcome.ok.injEq] at h
      exact ⟨r, by rw [Decidable.not_not.mp ha], h.symm⟩

/-- C06. A text that opens a parenthesis is accepted only when it is complete: a side, a comma, a side and
the closing parenthesis, each side being `--` or a number. What the bound then reads is what is written,
whatever the bound held before. -/
theorem C06_accepts_only_complete_text (T : NumText R) (hT : TakesPrefix T) (zero : R)
    (m0 m' : MultiBound R) (t : List Char) (s' : Stream)
    (h : parse T zero m0 (some ('(' :: t)) = .ok (m', s')) :
    ∃ u1 u2 rest, t = u1 ++ ',' :: (u2 ++ ')' :: rest) ∧ s' = some rest ∧ getMode m' = .double ∧
      IsSide T u1 (',' :: (u2 ++ ')' :: rest)) (getDoubleBound m' .inf) ∧
      IsSide T u2 (')' :: rest) (getDoubleBound m' .sup) := by
  simp only [parse, getc, if_true, Outcome.bind_eq_ok] at h
  obtain ⟨⟨v1, s2⟩, h1, s3, h2, ⟨v2, s4⟩, h3, s5, h4, h5⟩ := h
  obtain ⟨t2, rfl, rfl⟩ := expect_ok _ _ _ h2
  obtain ⟨t4, rfl, rfl⟩ := expect_ok _ _ _ h4
  obtain ⟨u1, rfl, hu1⟩ := parseSide_ok T hT zero none t v1 _ h1
  obtain ⟨u2, rfl, hu2⟩ := parseSide_ok T hT zero v1 t2 v2 _ h3
  simp only [Outcome.ok.injEq, Prod.mk.injEq] at h5
  obtain ⟨rfl, rfl⟩ := h5
  refine ⟨u1, u2, t4, rfl, rfl, ?_, ?_, ?_⟩
  · rcases m0 with ⟨md0, a0, b0, c0, d0, e0⟩
    cases md0 <;> cases v1 <;> cases v2 <;>
      simp [storeSide, setDoubleBound, unsetDoubleBound, toDouble, getMode]
  · rcases hu1 with ⟨rfl, rfl⟩ | ⟨v, hv, rfl⟩
    · refine .inl ⟨rfl, ?_⟩
      rcases m0 with ⟨md0, a0, b0, c0, d0, e0⟩
      cases md0 <;> cases v2 <;>
        simp [storeSide, setDoubleBound, unsetDoubleBound, toDouble, getDoubleBound]
    · refine .inr ⟨v, hv, ?_⟩
      rcases m0 with ⟨md0, a0, b0, c0, d0, e0⟩
      cases md0 <;> cases v2 <;>
        simp [storeSide, setDoubleBound, unsetDoubleBound, toDouble, getDoubleBound]
  · rcases hu2 with ⟨rfl, rfl⟩ | ⟨v, hv, rfl⟩
    · refine .inl ⟨rfl, ?_⟩
      rcases m0 with ⟨md0, a0, b0, c0, d0, e0⟩
      cases md0 <;> cases v1 <;>
        simp [storeSide, setDoubleBound, unsetDoubleBound, toDouble, getDoubleBound]
    · refine .inr ⟨v, hv, ?_⟩
      rcases m0 with ⟨md0, a0, b0, c0, d0, e0⟩
      cases md0 <;> cases v1 <;>
        simp [storeSide, setDoubleBound, unsetDoubleBound, toDouble, getDoubleBound]

theorem scanDigits_prefix (s : List Char) : ∀ acc, ∃ u, s = u ++ (scanDigits acc s).2 := by
  induction s with
  | nil => exact fun _ => ⟨[], rfl⟩
  | cons c cs ih =>
    intro acc
    simp only [scanDigits]
    split
    · obtain ⟨u, hu⟩ := ih (acc * 10 + (c.toNat - 48))
      exact ⟨c :: u, by rw [List.cons_append, ← hu]⟩
    · exact ⟨[], rfl⟩

theorem scanNat_prefix (s : List Char) (v : Nat) (r : List Char) (h : scanNat s = some (v, r)) :
    ∃ u, s = u ++ r := by
  cases s with
  | nil => simp [scanNat] at h
  | cons c cs =>
    simp only [scanNat] at h
    split at h
    · obtain ⟨u, hu⟩ := scanDigits_prefix (c :: cs) 0
      simp only [Option.some.injEq] at h
      rw [h] at hu
      exact ⟨u, hu⟩
    · simp at h

/-- Reading integers takes the number from the head of the text. -/
theorem intText_takesPrefix : TakesPrefix intText := by
  intro s v r h
  change scanInt s = some (v, r) at h
  unfold scanInt at h
  split at h
  · rename_i cs
    simp only [Option.map_eq_some_iff] at h
    obtain ⟨⟨n, r'⟩, hn, he⟩ := h
    simp only [Prod.mk.injEq] at he
    obtain ⟨u, hu⟩ := scanNat_prefix _ _ _ hn
    exact ⟨'-' :: u, by rw [hu, he.2]; rfl⟩
  · simp only [Option.map_eq_some_iff] at h
    obtain ⟨⟨n, r'⟩, hn, he⟩ := h
    simp only [Prod.mk.injEq] at he
    obtain ⟨u, hu⟩ := scanNat_prefix _ _ _ hn
    exact ⟨u, by rw [hu, he.2]⟩

theorem showInt_no_close (x : Int) : ')' ∉ intText.show_ x := by
  intro h
  change ')' ∈ showInt x at h
  unfold showInt at h
  split at h
  · simp only [List.mem_cons] at h
    rcases h with h | h
    · exact absurd h (by decide)
    · exact absurd (showNat_digits _ _ h) (by decide)
  · exact absurd (showNat_digits _ _ h) (by decide)

/-- C06 for integral numbers. The text of a double bound cut anywhere before its end is never accepted. -/
theorem C06_cut_text_is_refused (m m0 m' : MultiBound Int) (p q : List Char) (s' : Stream)
    (hm : getMode m = .double) (hq : q ≠ []) (hpq : print intText m = p ++ q) :
    parse intText 0 m0 (some p) ≠ .ok (m', s') := by
  intro h
  cases p with
  | nil => simp [parse, getc] at h
  | cons c t =>
    obtain ⟨body, hb, hnb⟩ : ∃ body, print intText m = '(' :: (body ++ [')']) ∧ ')' ∉ body := by
      rcases m with ⟨md, a, b, c, d, e⟩
      simp only [getMode] at hm
      subst hm
      refine ⟨(if e then intText.show_ c else ['-', '-']) ++ [','] ++
        (if d then intText.show_ b else ['-', '-']), by simp [print], ?_⟩
      have h1 := showInt_no_close c
      have h2 := showInt_no_close b
      cases d <;> cases e <;> simp [h1, h2]
    rw [hb] at hpq
    simp only [List.cons_append, List.cons.injEq] at hpq
    obtain ⟨rfl, hpq⟩ := hpq
    obtain ⟨u1, u2, rest, rfl, -, -, -, -⟩ :=
      C06_accepts_only_complete_text intText intText_takesPrefix 0 m0 m' t s' h
    have hlast : ∃ q', q = q' ++ [')'] := by
      have hl := congrArg List.getLast? hpq
      refine ⟨q.dropLast, ?_⟩
      have h2 := List.dropLast_concat_getLast hq
      rw [List.getLast?_append, List.getLast?_append, List.getLast?_eq_some_getLast hq] at hl
      simp only [List.getLast?_singleton, Option.some_or, Option.some.injEq] at hl
      rw [← hl] at h2
      exact h2.symm
    obtain ⟨q', rfl⟩ := hlast
    rw [← List.append_assoc] at hpq
    have := List.append_cancel_right hpq
    apply hnb
    rw [this]
    simp

example : print intText (run (ofSingle 0 1) [.setDouble .inf (-12), .setDouble .sup 7]) =
    "(-12,7".toList ++ ")".toList := by
  simp [run, step, ofSingle, setDoubleBound, toDouble, print, intText, showInt, showNat, digitChar]

/-- C06. A text cut after the comma, with at most one character of the second side, raises an exception
when the first side is a number; when the first side is `--` a variable that was never written is read. -/
theorem C06_cut_after_comma (T : NumText R) (zero x : R) (m0 : MultiBound R) (hx : T.Exact x)
    (u : List Char) (hu : u.length < 2) :
    parse T zero m0 (some ('(' :: (T.show_ x ++ ',' :: u))) = .throw ∧
    parse T zero m0 (some ('(' :: '-' :: '-' :: ',' :: u)) = .ub := by
  have h1 := parseSide_number T zero x none hx ',' u (.inl rfl)
  have h2 := parseSide_dashes T zero none (',' :: u)
  have h3 : ∀ val, parseSide T zero val (some u) = parseSide.stale val := by
    intro val
    match u, hu with
    | [], _ => rfl
    | [_], _ => rfl
    | _ :: _ :: _, h => simp at h; omega
  constructor
  · simp [parse, getc, h1, expect_self, h3, parseSide.stale, expect]
  · simp [parse, getc, h2, expect_self, h3, parseSide.stale]

example : parse intText 0 (ofSingle 0 3) (some "(1,2".toList) = .throw ∧
    parse intText 0 (ofSingle 0 3) (some "(--,".toList) = .ub ∧
    (parse intText 0 (ofSingle 0 3) (some "(--,-4)7".toList)).map (fun r => (readings r.1, r.2)) =
      .ok ((.double, .throw, .throw, .ok (-4)), some ['7']) := by
  decide

theorem parseElems_print (T : NumText R) (zero : R) (v v0 : List (MultiBound R))
    (hlen : v0.length = v.length) (hne : v ≠ []) (hv : ∀ m ∈ v, ExactOn T m) (rest : List Char) :
    ∃ v', parseElems T zero v0 (some (printElems T v ++ ')' :: rest)) = .ok (v', some rest) ∧
      v'.map readings = v.map readings := by
  induction v generalizing v0 with
  | nil => exact absurd rfl hne
  | cons m ms ih =>
    cases v0 with
    | nil => simp at hlen
    | cons m0 ms0 =>
      have hlen' : ms0.length = ms.length := by simpa using hlen
      cases ms with
      | nil =>
        have : ms0 = [] := by simpa using hlen'
        subst this
        obtain ⟨m', h1, h2⟩ := C06_round_trip_partial T zero m m0 (hv m (by simp)) (')' :: rest)
          (.inr ⟨_, _, rfl, by simp⟩)
        refine ⟨[m'], ?_, by simp [h2]⟩
        simp only [printElems, parseElems, h1]
        simp [checkC, getc]
      | cons m2 ms2 =>
        have hne0 : ms0.isEmpty = false := by
          cases ms0 with
          | nil => simp at hlen'
          | cons => rfl
        obtain ⟨m', h1, h2⟩ := C06_round_trip_partial T zero m m0 (hv m (by simp))
          (',' :: (printElems T (m2 :: ms2) ++ ')' :: rest)) (.inr ⟨_, _, rfl, by simp⟩)
        obtain ⟨v', h3, h4⟩ := ih ms0 hlen' (by simp) (fun x hx => hv x (by simp [hx]))
        refine ⟨m' :: v', ?_, by simp [h2, h4]⟩
        have hp : printElems T (m :: m2 :: ms2) ++ ')' :: rest =
            print T m ++ ',' :: (printElems T (m2 :: ms2) ++ ')' :: rest) := by
          simp [printElems]
        rw [hp]
        simp only [parseElems, h1, Outcome.bind_ok, hne0]
        simp only [checkC, getc, Bool.false_eq_true, if_false, ne_eq, not_true, Outcome.bind_ok]
        rw [h3]
        simp

theorem length_resize (zero : R) (v : List (MultiBound R)) (n : Nat) :
    (resize zero v n).length = n := by
  simp [resize]; omega

/-- C06 for vectors. Printing a non-empty vector of bounds and parsing the text into any vector `v0`
(of any previous length) restores all readings and consumes exactly the printed text. -/
theorem C06_vector_round_trip_partial (T : NumText R) (zero : R) (v v0 : List (MultiBound R))
    (hne : v ≠ []) (hv : ∀ m ∈ v, ExactOn T m) (rest : List Char) :
    ∃ v', parseVec T natText zero v0 (some (printVec T natText v ++ rest)) = .ok (v', some rest) ∧
      v'.map readings = v.map readings := by
  obtain ⟨v', h1, h2⟩ := parseElems_print T zero v (resize zero v0 v.length)
    (length_resize zero v0 v.length) hne hv rest
  refine ⟨v', ?_, h2⟩
  have hsc := (natText_exact v.length).scan_show (']' :: '(' :: (printElems T v ++ ')' :: rest))
    (.inr ⟨_, _, rfl, by simp⟩)
  have hp : printVec T natText v ++ rest =
      '[' :: (natText.show_ v.length ++ ']' :: '(' :: (printElems T v ++ ')' :: rest)) := by
    simp [printVec]
  rw [hp]
  simp [parseVec, checkC, getc, hsc, h1]

/-- C06 for vectors of integral bounds. -/
theorem C06_vector_round_trip_int_partial (v v0 : List (MultiBound Int)) (hne : v ≠ [])
    (rest : List Char) :
    ∃ v', parseVec intText natText 0 v0 (some (printVec intText natText v ++ rest))
        = .ok (v', some rest) ∧
      v'.map readings = v.map readings := by
  refine C06_vector_round_trip_partial intText 0 v v0 hne ?_ rest
  intro m _
  unfold ExactOn
  split
  · exact intText_exact _
  · exact ⟨fun _ => intText_exact _, fun _ => intText_exact _⟩

/-- Disagreement: the empty vector is printed `[0]()` but the closing parenthesis is never consumed by
the reader, for every target vector and every continuation of the stream. -/
theorem C06_empty_vector_counterexample (v0 : List (MultiBound Int)) (rest : List Char) :
    parseVec intText natText 0 v0 (some (printVec intText natText [] ++ rest))
      = .ok ([], some (')' :: rest)) := by
  have h0 : natText.show_ 0 = ['0'] := by
    show showNat 0 = ['0']
    unfold showNat
    decide
  simp only [printVec, List.length_nil, h0]
  simp [parseVec, checkC, getc, natText, scanNat, scanDigits, printElems, parseElems, resize,
    Char.isDigit]

/-- ... so two vectors printed one after the other cannot be read back when the first is empty. -/
theorem C06_empty_vector_sequence_counterexample :
    (parseVec intText natText 0 [] (some (printVec intText natText [] ++
        printVec intText natText [ofSingle 0 5]))).bind
      (fun (_, s) => parseVec intText natText 0 [] s) = .throw := by
  rw [C06_empty_vector_counterexample]
  simp [parseVec, checkC, getc]

example : print intText (ofDouble 0 (-12) 7) = "(-12,7)".toList := by
  simp [print, ofDouble, intText, showInt, showNat]; decide

example : (ofSide (0:Int) 3 .sup) ∈ [ofSingle 0 1, ofSide (0:Int) 3 .sup] ∧
    ([ofSingle (0:Int) 1, ofSide 0 3 .sup] ≠ []) := by decide

end Verif.MultiBound
