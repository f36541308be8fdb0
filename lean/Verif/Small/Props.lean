import Verif.Small.Model
import Verif.Flags.Props
import Verif.Periodic.Props

/-!
# C121: small entities and functions
-/

namespace Verif.Small

open Verif

/-! ### The entity that recomputes signals -/

section Trigger
variable {K S : Type} [LinearOrder K]

/-- The signals of `m` whose factor divides `t`, in order. -/
def due (m : Periodic.Calls K S) (t : Int) : List (K × S) :=
  (m.filter fun p => t % (p.2.2 : Int) = 0).map fun p => (p.1, p.2.1)

theorem runSignals_due (th : S → Bool) (t : Int) (h0 : 0 ≤ t) (h1 : t < 2147483648) :
    ∀ m : Periodic.Calls K S, (∀ p ∈ m, 0 < p.2.2) → (∀ p ∈ m, th p.2.1 = false) →
      Periodic.runSignals th t m = (due m t, .ok ())
  | [], _, _ => rfl
  | (k, s, df) :: m, hdf, hth => by
    have hd : 0 < df := hdf (k, s, df) (by simp)
    have hs : th s = false := hth (k, s, df) (by simp)
    have ih := runSignals_due th t h0 h1 m (fun p hp => hdf p (by simp [hp]))
      (fun p hp => hth p (by simp [hp]))
    have hr : Periodic.remainder t df = some (t.toNat % df) := by
      have h2 : t % 4294967296 = t := Int.emod_eq_of_lt h0 (by omega)
      have h3 : df ≠ 0 := by omega
      rw [Periodic.remainder, if_neg h3, h2]
    have hz : t % (df : Int) = ((t.toNat % df : Nat) : Int) := by
      rw [Int.natCast_emod, Int.toNat_of_nonneg h0]
    rw [Periodic.runSignals, hr]
    cases hq : t.toNat % df with
    | zero =>
      rw [hq] at hz
      simp [hs, ih, due, hz]
    | succ n =>
      rw [hq] at hz
      have : t % (df : Int) ≠ 0 := by rw [hz]; omega
      simp [ih, due, this]

/-- C121. With positive factors, times of the code and signals that do not throw, each reading recomputes
the signals that are due, until the first reading of the flushing signal, included; every later reading
recomputes nothing. -/
theorem C121_flushed_once (m : Periodic.Calls K S) (hdf : ∀ p ∈ m, 0 < p.2.2)
    (l : List ((S → Bool) × Trigger × Int))
    (hl : ∀ x ∈ l, 0 ≤ x.2.2 ∧ x.2.2 < 2147483648 ∧ ∀ s, x.1 s = false) (n : Nat) :
    (reads m l)[n]? = (l[n]?).map fun x =>
      if ∃ y ∈ l.take n, y.2.1 = .trigerOnce then [] else due m x.2.2 := by
  induction l generalizing m n with
  | nil => simp [reads]
  | cons x l ih =>
    obtain ⟨th, g, t⟩ := x
    obtain ⟨h0, h1, hth⟩ := hl (th, g, t) (by simp)
    have hr := runSignals_due th t h0 h1 m hdf (fun p _ => hth p.2.1)
    have hl' : ∀ x ∈ l, 0 ≤ x.2.2 ∧ x.2.2 < 2147483648 ∧ ∀ s, x.1 s = false :=
      fun x hx => hl x (by simp [hx])
    cases n with
    | zero => cases g <;> simp [reads, read, hr]
    | succ n =>
      cases g with
      | triger =>
        have := ih m hdf hl' n
        simp only [reads, read, hr, List.getElem?_cons_succ, this, List.take_succ_cons, List.mem_cons,
          exists_eq_or_imp, reduceCtorEq, false_or]
      | trigerOnce =>
        have := ih ([] : Periodic.Calls K S) (by simp) hl' n
        simp [reads, read, hr, this, due]

/-- C121. A reading of the flushing signal interrupted by an exception flushes nothing: it leaves the set of
signals as the other signal does, and the next reading starts again from the first signal. -/
theorem C121_interrupted_keeps (throws : S → Bool) (m : Periodic.Calls K S) (t : Int)
    (h : (read throws m .trigerOnce t).2.2 ≠ .ok ()) :
    read throws m .trigerOnce t = read throws m .triger t ∧ (read throws m .trigerOnce t).2.1 = m := by
  unfold read at h ⊢
  dsimp only at h ⊢
  cases hr : (Periodic.runSignals throws t m).2 with
  | ok u => rw [hr] at h; exact absurd rfl h
  | throw => simp
  | ub => simp

/-- C121. The plain signal never changes the set of signals. -/
theorem C121_plain_keeps (throws : S → Bool) (m : Periodic.Calls K S) (t : Int) :
    (read throws m .triger t).2.1 = m := rfl

example : reads [(1, 'a', 1), (2, 'b', 2)]
      [(fun _ => false, .triger, 3), (fun c => c = 'b', .trigerOnce, 4), (fun _ => false, .trigerOnce, 6),
        (fun _ => false, .triger, 8)] =
    [[(1, 'a')], [(1, 'a'), (2, 'b')], [(1, 'a'), (2, 'b')], []] := by decide

end Trigger

/-! ### `setflag` -/

/-- The white space of the C library. -/
def White (c : Char) : Prop := c ∈ [' ', '\t', '\n', '\r', '\x0b', '\x0c']

/-- A text made of `0`, `1` and spaces. -/
def Bits (l : List Char) : Prop := ∀ c ∈ l, c = '0' ∨ c = '1' ∨ c = ' '

theorem white_iff (c : Char) : White c ↔ isWs c = true := by
  simp [White, isWs, or_assoc]

theorem dropWhile_white (w body : List Char) (hw : ∀ c ∈ w, White c) :
    (w ++ body).dropWhile isWs = body.dropWhile isWs :=
  List.dropWhile_append_of_pos fun a ha => (white_iff a).mp (hw a ha)

theorem bits_dropWhile (body : List Char) (hb : Bits body) :
    Bits (body.dropWhile isWs) ∧
      (body.dropWhile isWs).filter (· ≠ ' ') = body.filter (· ≠ ' ') := by
  induction body with
  | nil => exact ⟨hb, rfl⟩
  | cons a body ih =>
    have ih := ih (fun c hc => hb c (by simp [hc]))
    rcases hb a (by simp) with rfl | rfl | rfl
    · rw [List.dropWhile_cons_of_neg (by decide)]; exact ⟨hb, rfl⟩
    · rw [List.dropWhile_cons_of_neg (by decide)]; exact ⟨hb, rfl⟩
    · rw [List.dropWhile_cons_of_pos (by decide)]
      refine ⟨ih.1, ?_⟩
      rw [ih.2]
      simp

/-- C121. `setflag` given white space, then `0`s, `1`s and spaces, makes the signal read the bits written;
the entries beyond keep the default of the flags the signal had. -/
theorem C121_setflag_stores (line : String) (hline : line ≠ "help") (now : Flags.Flags)
    (w body : List Char) (hw : ∀ c ∈ w, White c) (hb : Bits body) (i : Nat) :
    Flags.call (flagsAfter now (cmdFlagSet line (.flags (some now)) (w ++ body))) i =
      .ok (((body.filter fun c => decide (c ≠ ' '))[i]?.map fun c => decide (c = '1')).getD
        now.outOfRangeFlag) := by
  obtain ⟨h1, h2⟩ := bits_dropWhile body hb
  have hp := Flags.C04_parse_value now (body.dropWhile isWs) h1
  rw [Flags.call_natCast, cmdFlagSet, if_neg hline, dropWhile_white w body hw]
  simp only [Option.getD_some, hp, flagsAfter, Flags.val, Flags.specBits, h2]
  simp

/-- C121. `setflag` on a signal of flags accepts exactly these texts; any other text is answered by a syntax
error, and the flags of the signal do not change. -/
theorem C121_setflag_accepts (line : String) (hline : line ≠ "help") (now : Option Flags.Flags)
    (text : List Char) :
    (cmdFlagSet line (.flags now) text ≠ .syntaxError ↔
      ∃ w body, text = w ++ body ∧ (∀ c ∈ w, White c) ∧ Bits body) ∧
    ∀ f, cmdFlagSet line (.flags now) text = .syntaxError →
      flagsAfter f (cmdFlagSet line (.flags now) text) = f := by
  refine ⟨?_, fun f h => by rw [h]; rfl⟩
  have hp := Flags.C04_parse_accepts (now.getD (Flags.ofBool false)) (text.dropWhile isWs)
  have hc : cmdFlagSet line (.flags now) text ≠ .syntaxError ↔ Bits (text.dropWhile isWs) := by
    rw [Bits, ← hp, cmdFlagSet, if_neg hline]
    dsimp only
    cases (Flags.parse (now.getD (Flags.ofBool false)) (text.dropWhile isWs)).2 <;> simp
  rw [hc]
  constructor
  · intro h
    refine ⟨text.takeWhile isWs, text.dropWhile isWs, (List.takeWhile_append_dropWhile).symm, ?_, h⟩
    intro c hc
    exact (white_iff c).mpr (List.all_eq_true.mp (List.all_takeWhile (l := text)) c hc)
  · rintro ⟨w, body, rfl, hw, hb⟩
    rw [dropWhile_white w body hw]
    exact (bits_dropWhile body hb).1

/-- C121. The form the help of `setflag` announces, a range after one of `#`, `&` and `|`, is always
refused. -/
theorem C121_setflag_announced_form_counterexample (line : String) (hline : line ≠ "help")
    (now : Option Flags.Flags) (w rest : List Char) (c : Char) (hw : ∀ c ∈ w, White c)
    (hc : c = '#' ∨ c = '&' ∨ c = '|') :
    cmdFlagSet line (.flags now) (w ++ c :: rest) = .syntaxError := by
  refine Decidable.byContradiction fun h => ?_
  obtain ⟨w', body, he, hw', hb⟩ := (C121_setflag_accepts line hline now _).1.mp h
  have hm : c ∈ w' ++ body := by rw [← he]; simp
  rcases List.mem_append.mp hm with h1 | h1
  · have := hw' c h1
    rcases hc with rfl | rfl | rfl <;> simp [White] at this
  · rcases hb c h1 with rfl | rfl | rfl <;> simp at hc

/-- C121. A path that leads nowhere lets the exception of the library through; a signal that is not a
signal of flags gives the syntax error; `help` only prints. -/
theorem C121_setflag_other (line : String) (tgt : Target) (text : List Char) :
    cmdFlagSet "help" tgt text = .help ∧
    (line ≠ "help" → cmdFlagSet line .missing text = .rethrown) ∧
    (line ≠ "help" → cmdFlagSet line .otherType text = .syntaxError) := by
  refine ⟨rfl, fun h => ?_, fun h => ?_⟩ <;> rw [cmdFlagSet, if_neg h]

example : cmdFlagSet "setflag" (.flags (some ⟨[true, true, true], true⟩)) "  01".toList =
    .stored ⟨[false, true], true⟩ ∧
    cmdFlagSet "setflag" (.flags none) "\t1 1".toList = .stored ⟨[true, true], false⟩ ∧
    cmdFlagSet "setflag" (.flags none) "1\t1".toList = .syntaxError := by decide

/-! ### Constants -/

/-- C121. The output of a vector constant is what the last command asked for: the vector given, or a zero
vector of the size given. -/
theorem C121_vector_constant {R : Type} (zero : R) (l : List (VecCmd R)) (v : List R) (n : Nat) :
    vecOut zero (l ++ [.set v]) = some v ∧
    ∃ o, vecOut zero (l ++ [.resize n]) = some o ∧ o.length = n ∧ ∀ x ∈ o, x = zero := by
  refine ⟨by simp [vecOut, vecStep], List.replicate n zero, by simp [vecOut, vecStep], by simp, ?_⟩
  intro x hx
  exact List.eq_of_mem_replicate hx

/-- C121. The output of a matrix constant is what the last command asked for. -/
theorem C121_matrix_constant {R : Type} (zero : R) (l : List (MatCmd R)) (m : Dense R) (r c : Nat) :
    matOut zero (l ++ [.set m]) = some m ∧
    ∃ o, matOut zero (l ++ [.resize r c]) = some o ∧ o.rows = r ∧ o.cols = c ∧
      ∀ i j, o.get i j = zero := by
  refine ⟨by simp [matOut, matStep], ⟨r, c, fun _ _ => zero⟩, by simp [matOut, matStep], rfl, rfl,
    fun _ _ => rfl⟩

/-- C121. The output of a number constant is the last number given. -/
theorem C121_double_constant {R : Type} (l : List R) (x : R) : doubleOut (l ++ [x]) = some x := by
  simp [doubleOut]

example : vecOut (0 : Int) [.set [1, 2, 3], .resize 2] = some [0, 0] := by decide

/-! ### The sign of an integer -/

/-- C121. The output is 1 for the integers that are not negative, 0 for the negative ones, and so tells two
integers apart exactly when their signs differ. -/
theorem C121_binary (i j : Int) :
    (binary i = 1 ↔ 0 ≤ i) ∧ (binary i = 0 ↔ i < 0) ∧ (binary i = binary j ↔ (i < 0 ↔ j < 0)) := by
  unfold binary
  refine ⟨?_, ?_, ?_⟩
  · split <;> omega
  · split <;> omega
  · split <;> split <;> omega

/-! ### The Windows clock -/

theorem shiftLeft_or (high low : Nat) (hl : low < 4294967296) :
    (high <<< 32 ||| low) = high * 4294967296 + low := by
  rw [← Nat.shiftLeft_add_eq_or_of_lt (i := 32) hl high, Nat.shiftLeft_eq]

/-- C121. Between 1970 and 2038 the Windows clock gives the number of whole seconds and the remaining
microseconds since 1970: `t` is the time in hundreds of nanoseconds since 1601. -/
theorem C121_windows_clock (high low : Nat) (hl : low < 4294967296)
    (h0 : 116444736000000000 ≤ high * 4294967296 + low)
    (h1 : high * 4294967296 + low < 116444736000000000 + 2147483648 * 10000000) :
    0 ≤ (timeOfDay high low).2 ∧ (timeOfDay high low).2 < 1000000 ∧
    (timeOfDay high low).1 * 1000000 + (timeOfDay high low).2 =
      ((high * 4294967296 + low - 116444736000000000) / 10 : Nat) := by
  simp only [timeOfDay, shiftLeft_or high low hl, toLong]
  generalize high * 4294967296 + low = t at *
  have h2 : (t / 10 + (18446744073709551616 - 11644473600000000)) % 18446744073709551616 =
      t / 10 - 11644473600000000 := by omega
  rw [h2]
  have h3 : t / 10 - 11644473600000000 = (t - 116444736000000000) / 10 := by omega
  rw [h3]
  generalize hu : (t - 116444736000000000) / 10 = u
  have h4 : u < 2147483648 * 1000000 := by omega
  have h5 : u / 1000000 % 4294967296 = u / 1000000 := by omega
  have h6 : u % 1000000 % 4294967296 = u % 1000000 := by omega
  rw [h5, h6, if_pos (by omega), if_pos (by omega)]
  refine ⟨by omega, by omega, ?_⟩
  omega

/-- C121. From 2038 on the number of seconds is negative, for more than sixty years. -/
theorem C121_windows_clock_after_2038_counterexample (high low : Nat) (hl : low < 4294967296)
    (h0 : 116444736000000000 + 2147483648 * 10000000 ≤ high * 4294967296 + low)
    (h1 : high * 4294967296 + low < 116444736000000000 + 4294967296 * 10000000) :
    (timeOfDay high low).1 < 0 := by
  simp only [timeOfDay, shiftLeft_or high low hl, toLong]
  generalize high * 4294967296 + low = t at *
  have h2 : (t / 10 + (18446744073709551616 - 11644473600000000)) % 18446744073709551616 =
      t / 10 - 11644473600000000 := by omega
  rw [h2]
  generalize hu : t / 10 - 11644473600000000 = u
  have h4 : u / 1000000 % 4294967296 = u / 1000000 := by omega
  rw [h4, if_neg (by omega)]
  omega

/-- C121. Before 1970 the difference wraps around: at the first instant of 1601 the result is not the time
before 1970. -/
theorem C121_windows_clock_before_1970_counterexample :
    (timeOfDay 0 0).1 * 1000000 + (timeOfDay 0 0).2 ≠ -11644473600000000 := by decide

/-- C121. The zone is initialised by the first call that asks for it and by no other; the offset given is in
minutes, an incomplete minute is dropped. -/
theorem C121_zone_once (zone : Int) (n : Nat) :
    (zoneCall 0 zone).1 = true ∧ (zoneCall (n + 1) zone).1 = false ∧
    0 < (zoneCall n zone).2.1 ∧
    (0 ≤ zone → 0 ≤ zone - 60 * (zoneCall n zone).2.2 ∧ zone - 60 * (zoneCall n zone).2.2 < 60) ∧
    (zone ≤ 0 → zone - 60 * (zoneCall n zone).2.2 ≤ 0 ∧ -60 < zone - 60 * (zoneCall n zone).2.2) := by
  have h : (zoneCall n zone).2.2 = zone.tdiv 60 := by
    unfold zoneCall
    split <;> rfl
  have h2 := Int.tmod_add_mul_tdiv zone 60
  refine ⟨rfl, rfl, ?_, fun h0 => ?_, fun h0 => ?_⟩
  · unfold zoneCall
    split <;> simp <;> omega
  · rw [h]
    have h3 := Int.tmod_nonneg 60 h0
    have h4 := Int.tmod_lt_of_pos zone (b := 60) (by omega)
    omega
  · rw [h]
    have h3 := Int.tmod_nonneg 60 (show 0 ≤ -zone by omega)
    have h4 := Int.tmod_lt_of_pos (-zone) (b := 60) (by omega)
    rw [Int.neg_tmod] at h3 h4
    omega

example : timeOfDay 27111902 3577643008 = (0, 0) := by decide
example : timeOfDay 30000000 7 = (1240428288, 0) := by
  decide

end Verif.Small
