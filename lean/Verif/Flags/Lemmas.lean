import Verif.Flags.Model

namespace Verif.Flags

/-- Value read at a natural index. -/
def val (f : Flags) (i : Nat) : Bool := (f.flags[i]?).getD f.outOfRangeFlag

theorem call_natCast (f : Flags) (i : Nat) : call f (i : Int) = .ok (val f i) := by
  unfold call val
  by_cases h : i < f.flags.length
  · have h1 : (i : Int) < (f.flags.length : Int) := by omega
    have h2 : ¬ ((i : Int) < 0) := by omega
    simp [h2, h]
  · have h1 : ¬ ((i : Int) < (f.flags.length : Int)) := by omega
    simp [h1]
    rw [List.getElem?_eq_none (by omega)]
    rfl

theorem call_nonneg (f : Flags) (i : Int) (h : 0 ≤ i) : call f i = .ok (val f i.toNat) := by
  obtain ⟨n, rfl⟩ := Int.eq_ofNat_of_zero_le h
  simpa using call_natCast f n

theorem length_combine (op : Bool → Bool → Bool) (a b : List Bool) (d : Bool) :
    (combine op a b d).length = a.length := by
  fun_induction combine op a b d <;> simp_all

theorem getElem?_combine (op : Bool → Bool → Bool) (a b : List Bool) (d : Bool) (i : Nat) :
    (combine op a b d)[i]? = (a[i]?).map (fun x => op x ((b[i]?).getD d)) := by
  fun_induction combine op a b d generalizing i with
  | case1 => simp
  | case2 a as d ih => cases i <;> simp_all
  | case3 a as b bs d ih => cases i <;> simp_all

theorem getElem?_growTo (l : List Bool) (n : Nat) (b : Bool) (i : Nat) :
    (growTo l n b)[i]? = if i < l.length then l[i]? else if i < n then some b else none := by
  unfold growTo
  split
  · rw [List.getElem?_append]
    split
    · rfl
    · rw [List.getElem?_replicate]
      split <;> split <;> first | rfl | omega
  · split
    · rfl
    · rw [List.getElem?_eq_none (by omega)]
      split
      · omega
      · rfl

theorem val_combined (op : Bool → Bool → Bool) (f g : Flags) (i : Nat) :
    val ⟨combine op (growTo f.flags g.flags.length f.outOfRangeFlag) g.flags g.outOfRangeFlag,
      op f.outOfRangeFlag g.outOfRangeFlag⟩ i = op (val f i) (val g i) := by
  unfold val
  simp only [getElem?_combine, getElem?_growTo]
  by_cases h1 : i < f.flags.length
  · simp [h1]
  · by_cases h2 : i < g.flags.length
    · simp [h1, h2]
    · have h3 : g.flags[i]? = none := List.getElem?_eq_none (by omega)
      have h4 : f.flags[i]? = none := List.getElem?_eq_none (by omega)
      simp [h1, h2]

theorem val_and (f g : Flags) (i : Nat) : val (andAssign f g) i = (val f i && val g i) :=
  val_combined (· && ·) f g i

theorem val_or (f g : Flags) (i : Nat) : val (orAssign f g) i = (val f i || val g i) :=
  val_combined (· || ·) f g i

theorem val_not (f : Flags) (i : Nat) : val (not f) i = !(val f i) := by
  unfold val not
  cases h : f.flags[i]? <;> simp [h]

theorem parseLoop_append (acc : List Bool) (s : List Char) :
    parseLoop acc s = (acc ++ (parseLoop [] s).1, (parseLoop [] s).2) := by
  induction s generalizing acc with
  | nil => simp [parseLoop]
  | cons c cs ih =>
    simp only [parseLoop]
    split
    · rw [ih (acc ++ [false]), ih ([] ++ [false])]; simp
    · split
      · rw [ih (acc ++ [true]), ih ([] ++ [true])]; simp
      · split
        · exact ih acc
        · simp

end Verif.Flags
