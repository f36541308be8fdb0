import Verif.MetaTask.Model
import Verif.Flags.Lemmas
import Verif.MatrixUtil.Props
import Mathlib.Tactic.IntervalCases
import Mathlib.Algebra.Ring.Parity

/-!
# C115: the meta tasks
-/

namespace Verif.MetaTask

open Matrix Verif.Geometry Verif.Homogeneous Verif.MatrixUtil

/-! ### Existence of an operational point -/

/-- The part of the name after its last colon is `op`. -/
def EndsIn (x op : List Char) : Prop := ':' ∉ op ∧ (x = op ∨ ∃ pre, x = pre ++ ':' :: op)

theorem lastPart_id (x : List Char) (h : ':' ∉ x) : lastPart x = x := by
  cases x with
  | nil => rfl
  | cons c cs =>
    simp only [List.mem_cons, not_or] at h
    simp [lastPart, Ne.symm h.1, h.2]

theorem lastPart_colon (pre op : List Char) (h : ':' ∉ op) : lastPart (pre ++ ':' :: op) = op := by
  induction pre with
  | nil => simp [lastPart, lastPart_id op h]
  | cons c cs ih =>
    simp only [List.cons_append, lastPart]
    split
    · exact ih
    · rw [if_pos (by simp)]
      exact ih

theorem lastPart_spec (x : List Char) : EndsIn x (lastPart x) := by
  induction x with
  | nil => exact ⟨by simp [lastPart], Or.inl rfl⟩
  | cons c cs ih =>
    obtain ⟨h1, h2⟩ := ih
    by_cases hc : c = ':'
    · have h : lastPart (c :: cs) = lastPart cs := by rw [lastPart, if_pos hc]
      rw [h]
      refine ⟨h1, Or.inr ?_⟩
      rcases h2 with h2 | ⟨pre, h2⟩
      · exact ⟨[], by rw [hc, ← h2]; rfl⟩
      · exact ⟨c :: pre, by rw [List.cons_append, ← h2]⟩
    · by_cases h : ':' ∈ cs
      · have he : lastPart (c :: cs) = lastPart cs := by rw [lastPart, if_neg hc, if_pos (by simpa using h)]
        rw [he]
        refine ⟨h1, Or.inr ?_⟩
        rcases h2 with h2 | ⟨pre, h2⟩
        · rw [h2] at h
          exact absurd h h1
        · exact ⟨c :: pre, by rw [List.cons_append, ← h2]⟩
      · have he : lastPart (c :: cs) = c :: cs := lastPart_id _ (by simp [Ne.symm hc, h])
        rw [he]
        exact ⟨by simp [Ne.symm hc, h], Or.inl rfl⟩

theorem lastPart_iff (x op : List Char) : lastPart x = op ↔ EndsIn x op := by
  constructor
  · intro h
    rw [← h]
    exact lastPart_spec x
  · rintro ⟨h, rfl | ⟨pre, rfl⟩⟩
    · exact lastPart_id _ h
    · exact lastPart_colon _ _ h

theorem unique_length {names : List (List Char)} (hu : names.Pairwise fun x y => lastPart x ≠ lastPart y) (op : List Char) :
    (names.filter fun x => lastPart x == op).length = if ∃ x ∈ names, lastPart x = op then 1 else 0 := by
  induction names with
  | nil => simp
  | cons a l ih =>
    rw [List.pairwise_cons] at hu
    have ih := ih hu.2
    by_cases ha : lastPart a = op
    · have hn : ¬ ∃ x ∈ l, lastPart x = op := by
        rintro ⟨x, hx, h⟩
        exact hu.1 x hx (by rw [ha, h])
      rw [if_neg hn] at ih
      rw [List.filter_cons, if_pos (by simpa using ha), List.length_cons, ih, if_pos ⟨a, by simp, ha⟩]
    · rw [List.filter_cons, if_neg (by simpa using ha), ih]
      by_cases h : ∃ x ∈ l, lastPart x = op
      · obtain ⟨x, hx, h⟩ := h
        rw [if_pos ⟨x, hx, h⟩, if_pos ⟨x, by simp [hx], h⟩]
      · rw [if_neg h, if_neg]
        rintro ⟨x, hx, h'⟩
        rcases List.mem_cons.mp hx with rfl | hx
        · exact ha h'
        · exact h ⟨x, hx, h'⟩

/-- When no two signals of the robot have the same last part, the point exists exactly if the robot has a signal of that name and a signal
of that name after a `J`: the robot is asked to create it exactly if one of them is missing. -/
theorem C115_exist (names : List (List Char)) (hu : names.Pairwise fun x y => ∀ o, ¬ (EndsIn x o ∧ EndsIn y o)) (op : List Char) :
    (opPointExist names op = true ↔ (∃ x ∈ names, EndsIn x op) ∧ ∃ x ∈ names, EndsIn x ('J' :: op)) ∧
      ∀ create, createOpPoint create names op =
        if opPointExist names op = true then .ok names else create names op := by
  refine ⟨?_, fun _ => rfl⟩
  have hu' : names.Pairwise fun x y => lastPart x ≠ lastPart y := hu.imp fun {x y} h he =>
    h (lastPart x) ⟨(lastPart_iff _ _).mp rfl, (lastPart_iff _ _).mp he.symm⟩
  simp only [opPointExist, unique_length hu', ← lastPart_iff]
  by_cases h1 : ∃ x ∈ names, lastPart x = op <;> by_cases h2 : ∃ x ∈ names, lastPart x = 'J' :: op <;> simp [h1, h2]

/-- With several signals of the same last part the test is another: one signal for the point and an odd number of Jacobians. -/
theorem C115_exist_counterexample (a b c : List Char) (ha : ':' ∉ a) (op : List Char) (h : ':' ∉ op) (hj : a ≠ op ∧ a ≠ 'J' :: op) :
    opPointExist [b ++ ':' :: op, b ++ ':' :: 'J' :: op, c ++ ':' :: 'J' :: op, a, 'J' :: op] op = true ∧
      opPointExist [b ++ ':' :: op, b ++ ':' :: 'J' :: op, c ++ ':' :: 'J' :: op] op = false := by
  have hj' : ':' ∉ 'J' :: op := by simp [h]
  have hne : ('J' :: op) ≠ op := fun he => by simpa using congrArg List.length he
  simp [opPointExist, lastPart_colon _ _ h, lastPart_colon _ _ hj', lastPart_id _ hj', lastPart_id _ ha, hj.1, hj.2, hne, Ne.symm hne]

/-- The visual meta task cannot be constructed. -/
theorem C115_visual_counterexample (create : List (List Char) → List Char → Outcome (List (List Char))) (names : List (List Char))
    (op : List Char) : visualCreateOpPoint create names op = .throw := rfl

/-! ### Displacement of the operational point -/

variable {F : Type} [Field F]

theorem run_append (l : List (Modif F)) (m : Modif F) : Point.run (l ++ [m]) = ((Point.run l).set m).1 := by
  simp [Point.run]

/-- Invariant: the two inputs read the same source; when active it is the modifier, whose transformation is then set. -/
theorem run_inv (l : List (Modif F)) :
    (Point.run l).position = (Point.run l).jacobian ∧ ((Point.run l).activ = true → (Point.run l).position = .modifier ∧ (Point.run l).transformation ≠ none) := by
  induction l using List.reverseRecOn with
  | nil => exact ⟨rfl, by simp [Point.run, Point.init]⟩
  | append_singleton l m ih =>
    rw [run_append]
    obtain ⟨h1, h2⟩ := ih
    cases m <;> cases ha : (Point.run l).activ <;> simp_all [Point.set]

/-- Whatever was assigned before, assigning `False` makes the feature read the position and the Jacobian of the robot, and `opmodif` be `False`. -/
theorem C115_modif_off {ι : Type} (l : List (Modif F)) (p : Pose F) (J : Matrix (Fin 3 ⊕ Fin 3) ι F) :
    (Point.run (l ++ [.off])).modif = .ok none ∧ (Point.run (l ++ [.off])).readPosition p = .ok p ∧
      (Point.run (l ++ [.off])).readJacobian p J = .ok J := by
  rw [run_append]
  exact ⟨rfl, rfl, rfl⟩

/-- Whatever was assigned before, assigning a transformation makes the feature read the displaced position and its Jacobian, and `opmodif` be
that transformation. -/
theorem C115_modif_to {ι : Type} (l : List (Modif F)) (m p : Pose F) (J : Matrix (Fin 3 ⊕ Fin 3) ι F) :
    (Point.run (l ++ [.to m])).modif = .ok (some m) ∧
      (Point.run (l ++ [.to m])).readPosition p = .ok ⟨p.R * m.R, p.R *ᵥ m.t + p.t⟩ ∧
      (Point.run (l ++ [.to m])).readJacobian p J = .ok (twist ⟨m.R⁻¹, -(m.R⁻¹ *ᵥ m.t)⟩ * J) := by
  rw [run_append]
  obtain ⟨h1, h2⟩ := run_inv l
  cases ha : (Point.run l).activ
  · simp [ha, Point.set, Point.modif, Point.readPosition, Point.readJacobian, opPosition, opJacobian, Pose.mul, Pose.inv]
  · have h2 := (h2 ha).1
    have h3 := h1 ▸ h2
    simp [ha, h2, h3, Point.set, Point.modif, Point.readPosition, Point.readJacobian, opPosition, opJacobian, Pose.mul, Pose.inv]

/-- Before any assignment the feature reads the robot. -/
theorem C115_modif_start {ι : Type} (p : Pose F) (J : Matrix (Fin 3 ⊕ Fin 3) ι F) :
    (Point.run ([] : List (Modif F))).modif = .ok none ∧ (Point.run []).readPosition p = .ok p ∧
      (Point.run []).readJacobian p J = .ok J := ⟨rfl, rfl, rfl⟩

/-- A refused value after a transformation changes nothing. -/
theorem C115_modif_refused (l : List (Modif F)) (m : Pose F) : Point.run (l ++ [.to m, .refused]) = Point.run (l ++ [.to m]) := by
  have h : l ++ [.to m, .refused] = (l ++ [.to m]) ++ [.refused] := by simp
  rw [h, run_append (l ++ [Modif.to m]) Modif.refused]
  have ha : (Point.run (l ++ [.to m])).activ = true := by
    rw [run_append]
    cases ha : (Point.run l).activ <;> simp [Point.set]
  simp [Point.set, ha]

/-- A refused value after `False`, or before any assignment, leaves `opmodif` at `False` but the feature reading the modifier: a position
displaced by the last transformation there was, or by memory that was not initialised. -/
theorem C115_modif_refused_counterexample (m p : Pose F) :
    (Point.run [.to m, .off, .refused]).modif = .ok none ∧
      (Point.run [.to m, .off, .refused]).readPosition p = .ok ⟨p.R * m.R, p.R *ᵥ m.t + p.t⟩ ∧
      (Point.run ([.refused] : List (Modif F))).modif = .ok none ∧ (Point.run [.refused]).readPosition p = .ub :=
  ⟨rfl, rfl, rfl, rfl⟩

/-- In a relative task the two points do not interfere: each is as if the assignments to the other had not been made. -/
theorem C115_relative (l : List (Bool × Modif F)) :
    (l.foldl Relative.step ⟨.init, .init⟩).other = Point.run ((l.filter fun x => !x.1).map Prod.snd) ∧
      (l.foldl Relative.step ⟨.init, .init⟩).base = Point.run ((l.filter fun x => x.1).map Prod.snd) := by
  induction l using List.reverseRecOn with
  | nil => exact ⟨rfl, rfl⟩
  | append_singleton l x ih =>
    obtain ⟨b, m⟩ := x
    rw [List.foldl_append, List.filter_append, List.filter_append, List.map_append, List.map_append]
    cases b <;> simp [Relative.step, ih.1, ih.2, run_append]

/-! ### Gains -/

/-- A number or a sequence of one gives that constant gain; three numbers are the value at zero, at infinity and the slope at zero; four are the
values at zero and at infinity and the point where the given part of the rise remains; nothing keeps the gain. -/
theorem C115_gain (g : Gain.Adaptive) (x y z w : ℝ) :
    setGain g .nothing = .ok g ∧
      (∀ a, a = GainArg.number x ∨ a = .sequence [x] → ∃ h, setGain g a = .ok h ∧ ∀ e, h.gain e = x) ∧
      (x ≠ y → ∃ h, setGain g (.sequence [x, y, z]) = .ok h ∧ ∀ e, h.gain e = (x - y) * Real.exp (-(z / (x - y)) * Gain.norm e) + y) ∧
      (x ≠ y → 0 < w → z ≠ 0 → ∃ h, setGain g (.sequence [x, y, z, w]) = .ok h ∧
        ∀ e, (Gain.norm e = 0 → h.gain e = x) ∧ (Gain.norm e = z → h.gain e = y + w * (x - y))) := by
  refine ⟨rfl, ?_, ?_, ?_⟩
  · rintro a (rfl | rfl) <;>
      exact ⟨_, rfl, fun e => by simp [Gain.Adaptive.gain, Gain.adaptiveValue, Gain.Adaptive.initConstant, Gain.Adaptive.init]⟩
  · intro h
    have h' : x - y ≠ 0 := sub_ne_zero.mpr h
    refine ⟨_, rfl, fun e => ?_⟩
    simp [Gain.Adaptive.gain, Gain.adaptiveValue, Gain.Adaptive.init, Ne.symm h']
  · intro h hw hz
    have h' : x - y ≠ 0 := sub_ne_zero.mpr h
    refine ⟨_, rfl, fun e => ⟨fun h0 => ?_, fun h0 => ?_⟩⟩
    · simp [Gain.Adaptive.gain, Gain.adaptiveValue, Gain.Adaptive.initFromPassingPoint, h0]
    · simp only [Gain.Adaptive.gain, Gain.adaptiveValue, Gain.Adaptive.initFromPassingPoint, h0, if_neg (Ne.symm h')]
      rw [show -(-1 / z * Real.log w) * z = Real.log w by field_simp, Real.exp_log hw]
      ring

/-- A sequence of any other length is ignored without a word. -/
theorem C115_gain_counterexample (g : Gain.Adaptive) (l : List ℝ) (h1 : l.length ≠ 1) (h3 : l.length ≠ 3) (h4 : l.length ≠ 4) :
    setGain g (.sequence l) = .ok g := by
  rcases l with _ | ⟨a, _ | ⟨b, _ | ⟨c, _ | ⟨d, _ | ⟨e, l⟩⟩⟩⟩⟩ <;> simp_all [setGain]

/-! ### References -/

/-- The pure translation of vector `t`. -/
def pureTranslation (t : Fin 3 → ℝ) : Homo ℝ := !![1, 0, 0, t 0; 0, 1, 0, t 1; 0, 0, 1, t 2; 0, 0, 0, 1]

theorem translationOf_eq (t : Fin 3 → ℝ) : translationOf (List.ofFn t) = pureTranslation t := by
  ext i j
  fin_cases i <;> fin_cases j <;> simp [translationOf, pureTranslation, List.getD, -List.ofFn_succ]

theorem poseOf_eq (v : Fin 6 → ℝ) : poseOf (List.ofFn v) = RPYToMatrix v := by
  unfold poseOf RPYToMatrix
  have h : ∀ (i : Nat) (hi : i < 6), (List.ofFn v).getD i 0 = v ⟨i, hi⟩ := by
    intro i hi
    simp [List.getD, hi, -List.ofFn_succ]
  rw [h 3 (by omega), h 4 (by omega), h 5 (by omega)]
  congr 1
  funext M
  congr 1
  funext i j
  by_cases hij : i.1 < 3 ∧ j = 3
  · rw [if_pos hij, dif_pos hij, h i.1 (by omega)]
  · rw [if_neg hij, dif_neg hij]

/-- Three numbers, as a tuple or as an array of one dimension or of one row, are a pure translation. -/
theorem C115_translation (t : Fin 3 → ℝ) (b : Bool) (k : Nat) :
    generic6dReference (.numbers (List.ofFn t)) = .ok (pureTranslation t) ∧
      generic6dReference (.array b (List.replicate k 1 ++ [3]) (List.ofFn t)) = .ok (pureTranslation t) := by
  constructor
  · simp only [generic6dReference, List.length_ofFn, if_true, translationOf_eq]
  · simp only [generic6dReference]
    rw [if_pos (by simp), if_pos (by simp), translationOf_eq]

/-- Six numbers, as a tuple or as an array of one dimension, are a position and the angles of roll, pitch and yaw. -/
theorem C115_pose (v : Fin 6 → ℝ) (b : Bool) :
    generic6dReference (.numbers (List.ofFn v)) = .ok (explicit ![v 0, v 1, v 2] (v 3) (v 4) (v 5)) ∧
      generic6dReference (.array b [6] (List.ofFn v)) = .ok (explicit ![v 0, v 1, v 2] (v 3) (v 4) (v 5)) := by
  rw [← RPYToMatrix_eq, ← poseOf_eq]
  constructor
  · simp [generic6dReference]
  · simp [generic6dReference]

/-- A four by four array and a tuple of four rows of four are the matrix itself. -/
theorem C115_matrix (M : Homo ℝ) (b : Bool) :
    generic6dReference (.array b [4, 4] (List.ofFn fun k : Fin 16 => M ⟨k / 4, by omega⟩ ⟨k % 4, by omega⟩)) = .ok M ∧
      generic6dReference (.rows (List.ofFn fun i => List.ofFn (M i))) = .ok M := by
  constructor
  · simp only [generic6dReference]
    rw [if_neg (by decide), if_pos trivial]
    congr 1
    funext i j
    have hk : 4 * i.1 + j.1 < 16 := by omega
    rw [List.getD, List.getElem?_ofFn, dif_pos hk, Option.getD_some]
    have h1 : (⟨(4 * i.1 + j.1) / 4, by omega⟩ : Fin 4) = i := Fin.ext (by simp only; omega)
    have h2 : (⟨(4 * i.1 + j.1) % 4, by omega⟩ : Fin 4) = j := Fin.ext (by simp only; omega)
    simp only [h1, h2]
  · simp only [generic6dReference]
    rw [if_neg (by simp), if_pos ⟨by simp, fun r hr => by obtain ⟨i, rfl⟩ := (List.mem_ofFn' _ _).mp hr; simp⟩]
    congr 1
    funext i j
    simp [List.getD, -List.ofFn_succ]

/-- The arguments that are refused: three numbers in a column, tuples of four numbers, of three tuples or of six tuples, arrays of six rows and
the array without dimension. -/
theorem C115_refused (a : RefArg) : generic6dReference a = .throw ↔
    (∃ b shape data, a = .array b shape data ∧
      (shape = [] ∨ (∃ l, l ≠ [] ∧ shape = 6 :: l ∧ (6 :: l).prod ≠ 3) ∨ (shape.prod = 3 ∧ shape.getLast? ≠ some 3))) ∨
    (∃ l, a = .numbers l ∧ l.length = 4) ∨ (∃ l, a = .rows l ∧ (l.length = 3 ∨ l.length = 6)) := by
  have hpose : ∀ d, poseOf d ≠ .throw := by
    intro d h
    rw [poseOf, rpy2tr_eq] at h
    cases h
  cases a with
  | array b shape data =>
    simp only [generic6dReference, RefArg.array.injEq, reduceCtorEq, false_and, exists_false, or_false]
    by_cases h3 : shape.prod = 3
    · rw [if_pos h3]
      by_cases hl : shape.getLast? = some 3
      · rw [if_pos hl]
        simp only [reduceCtorEq, false_iff, not_exists, not_and]
        rintro _ s _ ⟨_, rfl, _⟩ (rfl | ⟨l, hl', rfl, hp⟩ | ⟨_, hn⟩)
        · simp at h3
        · exact hp h3
        · exact hn hl
      · rw [if_neg hl]
        simp only [true_iff]
        exact ⟨b, shape, data, ⟨rfl, rfl, rfl⟩, Or.inr (Or.inr ⟨h3, hl⟩)⟩
    · rw [if_neg h3]
      by_cases h4 : shape = [4, 4]
      · rw [if_pos h4]
        subst h4
        simp only [reduceCtorEq, false_iff, not_exists, not_and]
        rintro _ s _ ⟨_, rfl, _⟩ (h | ⟨l, hl', h, hp⟩ | ⟨h, _⟩)
        · cases h
        · cases h
        · exact h3 h
      · rw [if_neg h4]
        by_cases h0 : shape = []
        · rw [if_pos h0]
          simp only [true_iff]
          exact ⟨b, shape, data, ⟨rfl, rfl, rfl⟩, Or.inl h0⟩
        · rw [if_neg h0]
          by_cases h6 : shape = [6]
          · rw [if_pos h6]
            simp only [hpose, false_iff, not_exists, not_and]
            rintro _ s _ ⟨_, rfl, _⟩ (h | ⟨l, hl', h, hp⟩ | ⟨h, _⟩)
            · exact h0 h
            · rw [h6] at h
              simp only [List.cons.injEq, true_and] at h
              exact hl' h.symm
            · exact h3 h
          · rw [if_neg h6]
            rcases shape with _ | ⟨n, l⟩
            · exact absurd rfl h0
            · by_cases hn : n = 6
              · subst hn
                rw [if_pos (by simp)]
                simp only [true_iff]
                exact ⟨b, _, data, ⟨rfl, rfl, rfl⟩, Or.inr (Or.inl ⟨l, fun h => h6 (by rw [h]), rfl, h3⟩)⟩
              · rw [if_neg (by simpa using hn)]
                simp only [reduceCtorEq, false_iff, not_exists, not_and]
                rintro _ s _ ⟨_, rfl, _⟩ (h | ⟨l, hl', h, hp⟩ | ⟨h, _⟩)
                · cases h
                · cases h
                  exact hn rfl
                · exact h3 h
  | numbers l =>
    simp only [generic6dReference, RefArg.numbers.injEq, reduceCtorEq, false_and, exists_false, false_or, or_false, exists_eq_left']
    by_cases h3 : l.length = 3
    · simp [h3]
    · by_cases h4 : l.length = 4
      · simp [h4]
      · by_cases h6 : l.length = 6
        · simp [h6, hpose]
        · simp [h3, h4, h6]
  | rows l =>
    simp only [generic6dReference, RefArg.rows.injEq, reduceCtorEq, false_and, exists_false, false_or, exists_eq_left']
    by_cases h3 : l.length = 3
    · simp [h3]
    · by_cases h4 : l.length = 4 ∧ ∀ r ∈ l, r.length = 4
      · rw [if_neg h3, if_pos h4]
        simp [h4.1]
      · by_cases h6 : l.length = 6
        · rw [if_neg h3, if_neg h4, if_pos h6]
          simp [h6]
        · rw [if_neg h3, if_neg h4, if_neg h6]
          simp [h3, h6]
  | other => simp [generic6dReference]

/-- A goal given in a form that is not understood is the identity, without an exception: a list, a row of six numbers, four rows that are not of
length four, or any other number of numbers. The robot is sent to the origin. -/
theorem C115_identity_counterexample (b : Bool) (data l : List ℝ) (m : List (List ℝ)) (hl : l.length ∉ [3, 4, 6])
    (hm : m.length = 4 ∧ ¬ ∀ r ∈ m, r.length = 4) :
    generic6dReference .other = .ok 1 ∧ generic6dReference (.array b [1, 6] data) = .ok 1 ∧
      generic6dReference (.array b [4, 3] data) = .ok 1 ∧ generic6dReference (.numbers l) = .ok 1 ∧ generic6dReference (.rows m) = .ok 1 := by
  simp only [List.mem_cons, List.not_mem_nil, or_false, not_or] at hl
  refine ⟨rfl, ?_, ?_, ?_, ?_⟩
  · simp [generic6dReference]
  · simp [generic6dReference]
  · simp [generic6dReference, hl.1, hl.2.1, hl.2.2]
  · simp only [generic6dReference]
    rw [if_neg (by omega), if_neg (fun h => hm.2 h.2), if_neg (by omega)]

/-! ### Goals -/

/-- A component of the selection. -/
def Selected (f : Flags.Flags) (i : Nat) : Prop := Flags.call f i = .ok true

theorem selected_iff (l : List Bool) (i : Nat) : Selected ⟨l, false⟩ i ↔ l[i]? = some true := by
  rw [Selected, Flags.call_natCast, Flags.val]
  cases h : l[i]? <;> simp [h]

theorem selected_six (i : Nat) : Selected ⟨List.replicate 6 true, false⟩ i ↔ i < 6 := by
  rw [selected_iff, List.getElem?_replicate]
  split <;> simp [*]

/-- `goto6d` returns exactly if the position and the gain are accepted, and then the reference is the position, the six components and no other
are selected and the gain is set. -/
theorem C115_goto6d (s : Goal) (p : RefArg) (g : GainArg) :
    ((goto6d s p g).2 = true ↔ generic6dReference p ≠ .throw ∧ g ≠ .other) ∧
      ((goto6d s p g).2 = true → (∃ M, generic6dReference p = .ok M ∧ (goto6d s p g).1.reference = some M) ∧
        (∀ i, Selected (goto6d s p g).1.selec i ↔ i < 6) ∧ setGain s.gain g = .ok (goto6d s p g).1.gain) := by
  have hub : generic6dReference p ≠ .ub := by
    have hpose : ∀ d, poseOf d ≠ .ub := by
      intro d h
      rw [poseOf, rpy2tr_eq] at h
      cases h
    intro h
    unfold generic6dReference at h
    repeat' split at h
    all_goals first | cases h | exact hpose _ h
  have hg : (∃ h, setGain s.gain g = .ok h) ↔ g ≠ .other := by
    cases g with
    | sequence l => rcases l with _ | ⟨a, _ | ⟨b, _ | ⟨c, _ | ⟨d, _ | ⟨e, l⟩⟩⟩⟩⟩ <;> simp [setGain]
    | _ => simp [setGain]
  unfold goto6d
  cases hp : generic6dReference p with
  | throw => simp
  | ub => exact absurd hp hub
  | ok M =>
    dsimp only
    cases h : setGain s.gain g with
    | ok h' =>
      exact ⟨by simpa using hg.mp ⟨h', h⟩, fun _ => ⟨⟨M, rfl, rfl⟩, selected_six, by simp⟩⟩
    | throw =>
      have : ¬ g ≠ .other := fun hn => by obtain ⟨x, hx⟩ := hg.mpr hn; rw [h] at hx; cases hx
      simpa using this
    | ub =>
      have : ¬ g ≠ .other := fun hn => by obtain ⟨x, hx⟩ := hg.mpr hn; rw [h] at hx; cases hx
      simpa using this

/-- A call that does not return because of the position or of the selection changes nothing; because of the gain, the reference and the selection
are already changed. -/
theorem C115_failed (s : Goal) (p : RefArg) (sel : SelecArg) (g : GainArg) :
    (generic6dReference p = .throw → gotoNd s p sel g = (s, false) ∧ goto6d s p g = (s, false)) ∧
      (toFlags s.selec sel = .throw → gotoNd s p sel g = (s, false)) ∧
      ∀ M f, generic6dReference p = .ok M → toFlags s.selec sel = .ok f → gotoNd s p sel .other = (⟨some M, f, s.gain⟩, false) := by
  refine ⟨fun h => ?_, fun h => ?_, fun M f hM hf => ?_⟩
  · simp [gotoNd, goto6d, h]
  · unfold gotoNd
    cases generic6dReference p <;> simp [h]
  · simp [gotoNd, hM, hf, setGain]

/-- After any sequence of `gotoNd` that return, the reference is that of the last, and the selection is the last that was given. -/
theorem C115_gotoNd (s : Goal) (p : RefArg) (sel : SelecArg) (g : GainArg) (h : (gotoNd s p sel g).2 = true) :
    (∃ M, generic6dReference p = .ok M ∧ (gotoNd s p sel g).1.reference = some M) ∧
      (sel = .nothing → (gotoNd s p sel g).1.selec = s.selec) ∧ (∀ f, sel = .flags f → (gotoNd s p sel g).1.selec = f) ∧
      (∀ t, sel = .text t → (∀ c ∈ t, c = '0' ∨ c = '1') → ∀ i, Selected (gotoNd s p sel g).1.selec i ↔ t[i]? = some '1') ∧
      (∀ l, sel = .bits l → ∀ i, Selected (gotoNd s p sel g).1.selec i ↔ l[i]? = some true) ∧
      setGain s.gain g = .ok (gotoNd s p sel g).1.gain := by
  have hbits : ∀ (l : List Bool) (i : Nat), Selected (Flags.ofVector l) i ↔ l[i]? = some true := selected_iff
  have htext : ∀ (t : List Char), (∀ c ∈ t, c = '0' ∨ c = '1') → Flags.charsToBits t = .ok (t.map fun c => c == '1') := by
    intro t
    induction t with
    | nil => intro _; rfl
    | cons c cs ih =>
      intro hc
      have ih := ih fun c h => hc c (by simp [h])
      rcases hc c (by simp) with rfl | rfl <;> simp [Flags.charsToBits, ih]
  unfold gotoNd at h ⊢
  cases hp : generic6dReference p with
  | throw => simp [hp] at h
  | ub => simp [hp] at h
  | ok M =>
    dsimp only
    cases hf : toFlags s.selec sel with
    | throw => simp [hp, hf] at h
    | ub => simp [hp, hf] at h
    | ok f =>
      dsimp only
      cases hg : setGain s.gain g with
      | throw => simp [hp, hf, hg] at h
      | ub => simp [hp, hf, hg] at h
      | ok g' =>
        refine ⟨⟨M, rfl, rfl⟩, ?_, ?_, ?_, ?_, rfl⟩
        · rintro rfl
          simpa [toFlags] using hf.symm
        · rintro f' rfl
          simpa [toFlags] using hf.symm
        · rintro t rfl ht i
          have hf' : f = Flags.ofVector (t.map fun c => c == '1') := by
            simpa [toFlags, Flags.ofChars, htext t ht, Flags.ofVector] using hf.symm
          simp only [hf', hbits, List.getElem?_map]
          cases t[i]? <;> simp
        · rintro l rfl i
          have hf' : f = Flags.ofVector l := by simpa [toFlags] using hf.symm
          simp only [hf', hbits]

/-- The functions of the relative task: both references are those given, or none is changed. -/
theorem C115_goto_relative (s : RelGoal) (p q : RefArg) (sel : SelecArg) (g : GainArg) :
    ((goto6dRel s p q g).2 = true → (∃ M N, generic6dReference p = .ok M ∧ generic6dReference q = .ok N ∧
        (goto6dRel s p q g).1.reference = some M ∧ (goto6dRel s p q g).1.referenceBase = some N) ∧
        (∀ i, Selected (goto6dRel s p q g).1.selec i ↔ i < 6) ∧ setGain s.gain g = .ok (goto6dRel s p q g).1.gain) ∧
      ((gotoNdRel s p q sel g).2 = true → (∃ M N, generic6dReference p = .ok M ∧ generic6dReference q = .ok N ∧
        (gotoNdRel s p q sel g).1.reference = some M ∧ (gotoNdRel s p q sel g).1.referenceBase = some N) ∧
        toFlags s.selec sel = .ok (gotoNdRel s p q sel g).1.selec ∧ setGain s.gain g = .ok (gotoNdRel s p q sel g).1.gain) ∧
      (generic6dReference p = .throw ∨ generic6dReference q = .throw →
        goto6dRel s p q g = (s, false) ∧ gotoNdRel s p q sel g = (s, false)) := by
  refine ⟨?_, ?_, ?_⟩
  · unfold goto6dRel
    cases hp : generic6dReference p with
    | ok M =>
      cases hq : generic6dReference q with
      | ok N =>
        dsimp only
        cases hg : setGain s.gain g with
        | ok g' =>
          exact fun _ => ⟨⟨M, N, rfl, rfl, rfl, rfl⟩, selected_six, rfl⟩
        | throw => simp
        | ub => simp
      | throw => simp
      | ub => simp
    | throw => simp
    | ub => simp
  · unfold gotoNdRel
    cases hp : generic6dReference p with
    | ok M =>
      cases hq : generic6dReference q with
      | ok N =>
        dsimp only
        cases hf : toFlags s.selec sel with
        | ok f =>
          dsimp only
          cases hg : setGain s.gain g with
          | ok g' => exact fun _ => ⟨⟨M, N, rfl, rfl, rfl, rfl⟩, rfl, rfl⟩
          | throw => simp
          | ub => simp
        | throw => simp
        | ub => simp
      | throw => simp
      | ub => simp
    | throw => simp
    | ub => simp
  · rintro (h | h)
    · simp [goto6dRel, gotoNdRel, h]
    · unfold goto6dRel gotoNdRel
      cases generic6dReference p <;> simp [h]

/-! ### The identity written as tuples -/

/-- The tuples of tuples used for the positions that are not given are the identity, whatever the order. -/
theorem C115_tuple_identity (n : Nat) :
    (tupleIdentity n).length = n ∧
      ∀ i j, i < n → j < n → ((tupleIdentity n).getD i []).length = n ∧ ((tupleIdentity n).getD i []).getD j 0 = if i = j then 1 else 0 := by
  have h : tupleIdentity n = (List.range n).map (tupleRow n) := by
    have : ∀ (l : List Nat) (m : List (List ℝ)), l.foldl (fun m i => m ++ [tupleRow n i]) m = m ++ l.map (tupleRow n) := by
      intro l
      induction l with
      | nil => simp
      | cons a l ih => intro m; simp [ih]
    rw [tupleIdentity, this, List.nil_append]
  rw [h]
  refine ⟨by simp, fun i j hi hj => ?_⟩
  have hr : ((List.range n).map (tupleRow n)).getD i [] = tupleRow n i := by simp [List.getD, hi]
  rw [hr]
  refine ⟨by simp [tupleRow]; omega, ?_⟩
  simp only [tupleRow, List.getD, List.append_assoc, List.singleton_append]
  by_cases h1 : j < i
  · rw [List.getElem?_append_left (by simpa using h1), if_neg (by omega)]
    simp [h1]
  · rw [List.getElem?_append_right (by simp; omega), List.length_replicate]
    by_cases h2 : i = j
    · subst h2
      simp
    · rw [if_neg h2]
      obtain ⟨k, hk⟩ : ∃ k, j - i = k + 1 := ⟨j - i - 1, by omega⟩
      rw [hk, List.getElem?_cons_succ]
      simp [List.getElem?_replicate]
      split <;> rfl

/-- A case: the names of the signals of a robot with one operational point, and a translation as a goal. -/
theorem C115_case : opPointExist [['r', ':', 'a'], ['r', ':', 'J', 'a']] ['a'] = true ∧ opPointExist [['r', ':', 'a']] ['a'] = false ∧
    generic6dReference (.numbers [1, 2, 3]) = .ok !![1, 0, 0, 1; 0, 1, 0, 2; 0, 0, 1, 3; 0, 0, 0, 1] := by
  refine ⟨by decide, by decide, ?_⟩
  have h := (C115_translation ![1, 2, 3] true 0).1
  simpa [pureTranslation] using h

end Verif.MetaTask
