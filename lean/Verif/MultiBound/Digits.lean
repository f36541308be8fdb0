import Verif.MultiBound.Model

/-!
# Decimal text of naturals and integers, an instance of `NumText`

This stands for `os << x` and `is >> x` of the standard library on integral values that are printed in
full (the default precision of `std::ostream` keeps six significant digits, so a `double` that is an
integer of at most six digits is printed exactly like this).
-/

namespace Verif.MultiBound

/-- Digit characters. -/
def digitChar (d : Nat) : Char := Char.ofNat (48 + d)

/-- Decimal text of a natural number. -/
def showNat (n : Nat) : List Char :=
  if _h : n < 10 then [digitChar n] else showNat (n / 10) ++ [digitChar (n % 10)]
termination_by n
decreasing_by omega

/-- Reading digits, most significant first, accumulating the value. -/
def scanDigits (acc : Nat) : List Char → Nat × List Char
  | [] => (acc, [])
  | c :: cs =>
    if c.isDigit then scanDigits (acc * 10 + (c.toNat - 48)) cs else (acc, c :: cs)

/-- Reading an unsigned number: at least one digit. (Leading white space and the sign characters
accepted by the standard library are not needed for printed texts and not modelled.) -/
def scanNat : List Char → Option (Nat × List Char)
  | [] => none
  | c :: cs => if c.isDigit then some (scanDigits 0 (c :: cs)) else none

/-- Decimal text of an integer. -/
def showInt (x : Int) : List Char :=
  if x < 0 then '-' :: showNat x.natAbs else showNat x.natAbs

/-- Reading an integer: optional minus sign, then digits. -/
def scanInt : List Char → Option (Int × List Char)
  | '-' :: cs => (scanNat cs).map fun (n, r) => (-(n : Int), r)
  | cs => (scanNat cs).map fun (n, r) => ((n : Int), r)

/-- Text form of sizes. -/
def natText : NumText Nat := ⟨showNat, scanNat⟩

/-- Text form of integral numbers. -/
def intText : NumText Int := ⟨showInt, scanInt⟩

theorem digitChar_isDigit (d : Nat) (h : d < 10) : (digitChar d).isDigit = true := by
  have : ∀ d : Fin 10, (digitChar d.val).isDigit = true := by decide
  exact this ⟨d, h⟩

theorem digitChar_toNat (d : Nat) (h : d < 10) : (digitChar d).toNat - 48 = d := by
  have : ∀ d : Fin 10, (digitChar d.val).toNat - 48 = d.val := by decide
  exact this ⟨d, h⟩

theorem digit_ne (c : Char) (h : c.isDigit = true) :
    c ≠ '-' ∧ c ≠ '(' ∧ c ≠ '\n' := by
  refine ⟨?_, ?_, ?_⟩ <;> (rintro rfl; revert h; decide)

theorem showNat_digits (n : Nat) : ∀ c ∈ showNat n, c.isDigit = true := by
  fun_induction showNat n with
  | case1 n h => simpa using digitChar_isDigit n h
  | case2 n h ih =>
    intro c hc
    simp only [List.mem_append, List.mem_singleton] at hc
    rcases hc with hc | rfl
    · exact ih c hc
    · exact digitChar_isDigit _ (by omega)

theorem showNat_ne_nil (n : Nat) : showNat n ≠ [] := by
  fun_induction showNat n <;> simp

theorem scanDigits_append (acc : Nat) (l rest : List Char) (hl : ∀ c ∈ l, c.isDigit = true) :
    scanDigits acc (l ++ rest)
      = scanDigits (l.foldl (fun a c => a * 10 + (c.toNat - 48)) acc) rest := by
  induction l generalizing acc with
  | nil => rfl
  | cons c cs ih =>
    have hc := hl c (by simp)
    simp only [List.cons_append, scanDigits, hc, if_true, List.foldl_cons]
    exact ih _ (fun c hc => hl c (by simp [hc]))

theorem showNat_value (n : Nat) :
    (showNat n).foldl (fun a c => a * 10 + (c.toNat - 48)) 0 = n := by
  fun_induction showNat n with
  | case1 n h => simp [digitChar_toNat n h]
  | case2 n h ih =>
    rw [List.foldl_append, ih]
    simp only [List.foldl_cons, List.foldl_nil, digitChar_toNat (n % 10) (by omega)]
    omega

theorem scanDigits_stop (acc : Nat) (rest : List Char)
    (h : rest = [] ∨ ∃ c r, rest = c :: r ∧ c ∈ [',', ')', ']']) :
    scanDigits acc rest = (acc, rest) := by
  rcases h with rfl | ⟨c, r, rfl, hc⟩
  · rfl
  · simp only [List.mem_cons, List.not_mem_nil, or_false] at hc
    rcases hc with rfl | rfl | rfl <;> simp [scanDigits, Char.isDigit]

theorem scanNat_show (n : Nat) (rest : List Char)
    (h : rest = [] ∨ ∃ c r, rest = c :: r ∧ c ∈ [',', ')', ']']) :
    scanNat (showNat n ++ rest) = some (n, rest) := by
  have hd := showNat_digits n
  have hv := showNat_value n
  have hne := showNat_ne_nil n
  have key : scanDigits 0 (showNat n ++ rest) = (n, rest) := by
    rw [scanDigits_append 0 _ _ hd, hv, scanDigits_stop _ _ h]
  cases hs : showNat n with
  | nil => exact absurd hs hne
  | cons c cs =>
    have hc : c.isDigit = true := hd c (by simp [hs])
    rw [hs] at key
    simp only [List.cons_append, scanNat, hc, if_true]
    rw [List.cons_append] at key
    rw [key]

theorem natText_exact (n : Nat) : natText.Exact n where
  scan_show := fun rest h => scanNat_show n rest h
  ne_nil := showNat_ne_nil n
  head_ne_paren := fun c r h => (digit_ne c (showNat_digits n c (by
    have : showNat n = c :: r := h
    simp [this]))).2.1
  no_dashes := fun r h => (digit_ne '-' (showNat_digits n '-' (by
    have : showNat n = '-' :: '-' :: r := h
    simp [this]))).1 rfl
  no_lone_dash := fun h => (digit_ne '-' (showNat_digits n '-' (by
    have : showNat n = ['-'] := h
    simp [this]))).1 rfl
  no_newline := fun c hc => (digit_ne c (showNat_digits n c hc)).2.2

theorem intText_exact (x : Int) : intText.Exact x := by
  have hn := natText_exact x.natAbs
  by_cases hx : x < 0
  · have hs : intText.show_ x = '-' :: showNat x.natAbs := by simp [intText, showInt, hx]
    refine ⟨?_, ?_, ?_, ?_, ?_, ?_⟩
    · intro rest h
      rw [hs, List.cons_append]
      simp only [intText, scanInt, scanNat_show _ _ h, Option.map_some]
      have : -(x.natAbs : Int) = x := by omega
      rw [this]
    · rw [hs]; simp
    · rw [hs]; intro c r h; simp at h; rw [← h.1]; decide
    · rw [hs]; intro r h; simp only [List.cons.injEq, true_and] at h
      exact (digit_ne '-' (showNat_digits x.natAbs '-' (by simp [h]))).1 rfl
    · rw [hs]; intro h; simp at h; exact showNat_ne_nil _ h
    · rw [hs]; intro c hc
      simp only [List.mem_cons] at hc
      rcases hc with rfl | hc
      · decide
      · exact (digit_ne c (showNat_digits _ c hc)).2.2
  · have hs : intText.show_ x = showNat x.natAbs := by simp [intText, showInt, hx]
    refine ⟨?_, ?_, ?_, ?_, ?_, ?_⟩
    · intro rest h
      rw [hs]
      have hsc := scanNat_show x.natAbs rest h
      have hd := showNat_digits x.natAbs
      cases hl : showNat x.natAbs with
      | nil => exact absurd hl (showNat_ne_nil _)
      | cons c cs =>
        have hc : c ≠ '-' := (digit_ne c (hd c (by simp [hl]))).1
        rw [hl] at hsc
        rw [List.cons_append] at hsc ⊢
        simp only [intText]
        unfold scanInt
        split
        · rename_i heq; simp at heq; exact absurd heq.1 hc
        · rw [hsc]
          have : (x.natAbs : Int) = x := by omega
          simp [this]
    · rw [hs]; exact hn.ne_nil
    · rw [hs]; exact hn.head_ne_paren
    · rw [hs]; exact hn.no_dashes
    · rw [hs]; exact hn.no_lone_dash
    · rw [hs]; exact hn.no_newline

end Verif.MultiBound
