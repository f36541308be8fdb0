import Verif.Posture.Model
import Verif.MetaTask.Props

/-!
# C114: the posture task
-/

namespace Verif.Posture

open Verif.MetaTask

/-! ### The table of limbs -/

/-- The joints of a limb. -/
def Joint (name : String) (i : Nat) : Prop := ∃ r, limbRange name = some r ∧ i ∈ r

/-- The limbs that do not overlap. -/
def mainLimbs : List String := ["rleg", "lleg", "chest", "head", "rarm", "rhand", "larm", "lhand"]

theorem table_nodup : ∀ p ∈ postureRange, p.2.Nodup := by decide

theorem lookup_mem {l : List (String × List Nat)} {a : String} {b : List Nat} (h : l.lookup a = some b) : (a, b) ∈ l := by
  induction l with
  | nil => cases h
  | cons x l ih =>
    obtain ⟨k, v⟩ := x
    rw [List.lookup_cons] at h
    by_cases hk : a = k
    · subst hk
      simp only [beq_self_eq_true, if_true, Option.some.injEq] at h
      simp [h]
    · rw [show (a == k) = false by simpa using hk] at h
      exact List.mem_cons_of_mem _ (ih h)

theorem limb_nodup {name : String} {r : List Nat} (h : limbRange name = some r) : r.Nodup := table_nodup _ (lookup_mem h)

theorem joint_iff {name : String} {r : List Nat} (h : limbRange name = some r) (i : Nat) : Joint name i ↔ i ∈ r :=
  ⟨fun ⟨r', h', hi⟩ => by rw [h] at h'; cases h'; exact hi, fun hi => ⟨r, h, hi⟩⟩

theorem joint_range {name : String} {i : Nat} (h : Joint name i) : 6 ≤ i ∧ i < 36 := by
  obtain ⟨r, hr, hi⟩ := h
  have : ∀ p ∈ postureRange, ∀ i ∈ p.2, 6 ≤ i ∧ i < 36 := by decide
  exact this _ (lookup_mem hr) i hi

/-- Each of the thirty joints belongs to exactly one main limb, no limb contains the six coordinates of the free flyer, and legs and arms are
made of their parts. -/
theorem C114_limbs :
    (∀ i, 6 ≤ i → i < 36 → ∃ n ∈ mainLimbs, Joint n i ∧ ∀ m ∈ mainLimbs, Joint m i → m = n) ∧
      (∀ n i, Joint n i → 6 ≤ i ∧ i < 36) ∧
      (∀ i, (Joint "rleg" i ↔ Joint "rhip" i ∨ Joint "rknee" i ∨ Joint "rankle" i) ∧
        (Joint "lleg" i ↔ Joint "lhip" i ∨ Joint "lknee" i ∨ Joint "lankle" i) ∧
        (Joint "rarm" i ↔ Joint "rshoulder" i ∨ Joint "relbow" i ∨ Joint "rwrist" i) ∧
        (Joint "larm" i ↔ Joint "lshoulder" i ∨ Joint "lelbow" i ∨ Joint "lwrist" i)) := by
  refine ⟨fun i h1 h2 => ?_, fun n i => joint_range, fun i => ?_⟩
  · have h : ∀ i ∈ List.range 36, 6 ≤ i → ∃ n ∈ mainLimbs, (∃ r ∈ limbRange n, i ∈ r) ∧ ∀ m ∈ mainLimbs, (∃ r ∈ limbRange m, i ∈ r) → m = n := by
      decide
    obtain ⟨n, hn, ⟨r, hr, hi⟩, hu⟩ := h i (by simpa using h2) h1
    exact ⟨n, hn, ⟨r, hr, hi⟩, fun m hm ⟨r, hr, hi⟩ => hu m hm ⟨r, hr, hi⟩⟩
  · have e : ∀ (n : String) (r : List Nat), limbRange n = some r → (Joint n i ↔ i ∈ r) := fun n r h => joint_iff h i
    rw [e "rleg" _ rfl, e "rhip" _ rfl, e "rknee" _ rfl, e "rankle" _ rfl, e "lleg" _ rfl, e "lhip" _ rfl, e "lknee" _ rfl, e "lankle" _ rfl,
      e "rarm" _ rfl, e "rshoulder" _ rfl, e "relbow" _ rfl, e "rwrist" _ rfl, e "larm" _ rfl, e "lshoulder" _ rfl, e "lelbow" _ rfl,
      e "lwrist" _ rfl]
    simp only [List.mem_range'_1, List.mem_singleton]
    omega

/-! ### Going to a posture -/

/-- The limb is known, its joints are below `n`, and the values given, if any, are one number or as many as the joints, which are below `m`. -/
def Fits (n m : Nat) (x : String × Vals) : Prop :=
  ∃ r, limbRange x.1 = some r ∧ (∀ i, Joint x.1 i → i < n) ∧
    (x.2 = .nothing ∨ ((∀ i, Joint x.1 i → i < m) ∧
      ((∃ v, x.2 = .number v) ∨ ∃ l, x.2 = .sequence l ∧ (l.length = r.length ∨ l.length = 1))))

/-- The argument gives the value `v` to the joint `j`: its number, its only number, or the number of the same rank as the joint in the limb. -/
def Gives (x : String × Vals) (j : Nat) (v : ℝ) : Prop :=
  ∃ (r : List Nat) (k : Nat), limbRange x.1 = some r ∧ r[k]? = some j ∧
    (x.2 = .number v ∨ ∃ l, x.2 = .sequence l ∧ (l = [v] ∨ l.length = r.length ∧ l[k]? = some v))

theorem activate_spec (r : List Nat) : ∀ act : List Bool, (activate act r).length = act.length ∧
    ∀ i, (activate act r)[i]? = some true ↔ (i ∈ r ∧ i < act.length) ∨ act[i]? = some true := by
  induction r with
  | nil => exact fun act => ⟨rfl, fun i => by simp [activate]⟩
  | cons a r ih =>
    intro act
    obtain ⟨h1, h2⟩ := ih (act.set a true)
    have he : activate act (a :: r) = activate (act.set a true) r := rfl
    rw [he]
    refine ⟨by simp [h1], fun i => ?_⟩
    rw [h2, List.length_set, List.getElem?_set]
    by_cases hi : a = i
    · subst hi
      by_cases hl : a < act.length
      · simp [hl]
      · simp [hl]
    · simp [hi, Ne.symm hi]

theorem fold_set (r : List Nat) : ∀ (l q : List ℝ), r.Nodup → l.length = r.length → (∀ i ∈ r, i < q.length) →
    ((r.zip l).foldl (fun q p => q.set p.1 p.2) q).length = q.length ∧
      (∀ (k j : Nat) (x : ℝ), r[k]? = some j → l[k]? = some x → ((r.zip l).foldl (fun q p => q.set p.1 p.2) q)[j]? = some x) ∧
      ∀ j, j ∉ r → ((r.zip l).foldl (fun q p => q.set p.1 p.2) q)[j]? = q[j]? := by
  induction r with
  | nil => exact fun l q _ _ _ => ⟨by simp, by simp, by simp⟩
  | cons a r ih =>
    intro l q hn hl hb
    rcases l with _ | ⟨b, l⟩
    · cases hl
    · rw [List.nodup_cons] at hn
      obtain ⟨h1, h2, h3⟩ := ih l (q.set a b) hn.2 (by simpa using hl) (fun i hi => by simpa using hb i (by simp [hi]))
      rw [List.zip_cons_cons, List.foldl_cons]
      refine ⟨by simpa using h1, fun k j x hk hx => ?_, fun j hj => ?_⟩
      · rcases k with _ | k
        · simp only [List.getElem?_cons_zero, Option.some.injEq] at hk hx
          subst hk hx
          rw [h3 a hn.1, List.getElem?_set_self (hb a (by simp))]
        · exact h2 k j x (by simpa using hk) (by simpa using hx)
      · simp only [List.mem_cons, not_or] at hj
        rw [h3 j hj.2, List.getElem?_set_ne (Ne.symm hj.1)]

theorem broadcast_spec (n : Nat) (v : Vals) : (∀ l, v.broadcast n = some l → l.length = n) ∧
    ((∃ l, v.broadcast n = some l) ↔ (∃ x, v = .number x) ∨ ∃ l, v = .sequence l ∧ (l.length = n ∨ l.length = 1)) ∧
    ∀ l, v.broadcast n = some l → ∀ k < n, ∀ x, l[k]? = some x ↔
      (v = .number x ∨ ∃ l', v = .sequence l' ∧ (l' = [x] ∨ l'.length = n ∧ l'[k]? = some x)) := by
  cases v with
  | nothing => simp [Vals.broadcast]
  | number y =>
    simp only [Vals.broadcast, Option.some.injEq, forall_eq', List.length_replicate, Vals.number.injEq, exists_eq', reduceCtorEq, false_and,
      exists_false, or_false, true_and]
    intro k hk x
    rw [List.getElem?_replicate, if_pos hk, Option.some.injEq]
  | sequence m =>
    simp only [Vals.broadcast, reduceCtorEq, exists_false, false_or, Vals.sequence.injEq, exists_eq_left']
    by_cases h1 : m.length = n
    · simp only [if_pos h1, Option.some.injEq, forall_eq', exists_eq', true_iff]
      refine ⟨h1, Or.inl h1, fun k hk x => ⟨fun h => Or.inr ⟨h1, h⟩, ?_⟩⟩
      rintro (rfl | ⟨_, h⟩)
      · simp only [List.length_singleton] at h1
        have : k = 0 := by omega
        simp [this]
      · exact h
    · simp only [if_neg h1]
      by_cases h2 : m.length = 1
      · obtain ⟨y, rfl⟩ := List.length_eq_one_iff.mp h2
        simp only [if_pos h2, Option.some.injEq, forall_eq', exists_eq', true_iff, List.length_replicate]
        refine ⟨trivial, Or.inr h2, fun k hk x => ?_⟩
        rw [List.getElem?_replicate, if_pos hk]
        simp only [List.getD_cons_zero, Option.some.injEq, List.cons.injEq, and_true]
        exact ⟨fun h => Or.inl h, fun h => h.elim id fun h => absurd h.1 h1⟩
      · simp [h1, h2]

theorem assign_spec {name : String} {r : List Nat} (hr : limbRange name = some r) (q : List ℝ) (v : Vals) :
    ((∃ q', assign q r v = some q') ↔ (∀ i, Joint name i → i < q.length) ∧
      ((∃ x, v = .number x) ∨ ∃ l, v = .sequence l ∧ (l.length = r.length ∨ l.length = 1))) ∧
    ∀ q', assign q r v = some q' → q'.length = q.length ∧ (∀ j x, Gives (name, v) j x → q'[j]? = some x) ∧
      ∀ j, (∀ x, ¬ Gives (name, v) j x) → q'[j]? = q[j]? := by
  obtain ⟨b1, b2, b3⟩ := broadcast_spec r.length v
  have hj : (∀ i, Joint name i → i < q.length) ↔ r.all (· < q.length) = true := by
    simp only [List.all_eq_true, decide_eq_true_eq, joint_iff hr]
  constructor
  · rw [hj, ← b2, assign]
    by_cases h : r.all (· < q.length) = true
    · simp [if_pos h, h, Option.map_eq_some_iff]
    · rw [if_neg h]
      simp [h]
  · intro q' hq
    rw [assign] at hq
    by_cases h : r.all (· < q.length) = true
    · rw [if_pos h, Option.map_eq_some_iff] at hq
      obtain ⟨l, hl, rfl⟩ := hq
      have h' : ∀ i ∈ r, i < q.length := by simpa using h
      obtain ⟨f1, f2, f3⟩ := fold_set r l q (limb_nodup hr) (b1 l hl) h'
      refine ⟨f1, fun j x hg => ?_, fun j hn => f3 j fun hjr => ?_⟩
      · obtain ⟨r', k, hr', hk, hv⟩ := hg
        rw [hr] at hr'
        cases hr'
        exact f2 k j x hk ((b3 l hl k (List.getElem?_eq_some_iff.mp hk).1 x).mpr hv)
      · obtain ⟨k, hk, rfl⟩ := List.mem_iff_getElem.mp hjr
        have hkl : k < l.length := by rw [b1 l hl]; exact hk
        exact hn l[k] ⟨r, k, hr, List.getElem?_eq_getElem hk, (b3 l hl k hk l[k]).mp (List.getElem?_eq_getElem hkl)⟩
    · rw [if_neg h] at hq
      cases hq

/-- The value of a joint after the arguments: that of the last argument that gives it one, or the first one. -/
def Final (kw : List (String × Vals)) (q q' : List ℝ) : Prop :=
  q'.length = q.length ∧ ∀ j, (∃ l1 x l2 v, kw = l1 ++ x :: l2 ∧ Gives x j v ∧ (∀ y ∈ l2, ∀ w, ¬ Gives y j w) ∧ q'[j]? = some v) ∨
    ((∀ x ∈ kw, ∀ v, ¬ Gives x j v) ∧ q'[j]? = q[j]?)

theorem limbs_spec (kw : List (String × Vals)) : ∀ (act : List Bool) (q : List ℝ),
    ((limbs kw act q).2.2 = true ↔ ∀ x ∈ kw, Fits act.length q.length x) ∧
      ((limbs kw act q).2.2 = true → (limbs kw act q).1.length = act.length ∧
        (∀ i, (limbs kw act q).1[i]? = some true ↔ (∃ x ∈ kw, Joint x.1 i) ∨ act[i]? = some true) ∧ Final kw q (limbs kw act q).2.1) := by
  induction kw with
  | nil => exact fun act q => ⟨by simp [limbs], fun _ => ⟨rfl, fun i => by simp [limbs], rfl, fun j => Or.inr ⟨by simp, rfl⟩⟩⟩
  | cons x rest ih =>
    obtain ⟨name, v⟩ := x
    intro act q
    cases hr : limbRange name with
    | none =>
      have e : limbs ((name, v) :: rest) act q = (act, q, false) := by rw [limbs, hr]
      rw [e]
      refine ⟨⟨fun h => (by cases h), fun h => ?_⟩, fun h => (by cases h)⟩
      obtain ⟨r, h1, _⟩ := h (name, v) (by simp)
      rw [hr] at h1
      cases h1
    | some r =>
      have hb : (∀ i, Joint name i → i < act.length) ↔ r.all (· < act.length) = true := by
        simp only [List.all_eq_true, decide_eq_true_eq, joint_iff hr]
      by_cases ha : r.all (· < act.length) = true
      · obtain ⟨a1, a2⟩ := activate_spec r act
        have hact : ∀ i, (activate act r)[i]? = some true ↔ Joint name i ∨ act[i]? = some true := by
          intro i
          rw [a2, joint_iff hr]
          refine or_congr_left ⟨fun h => h.1, fun h => ⟨h, by simpa using List.all_eq_true.mp ha i h⟩⟩
        have step : ∀ q1 : List ℝ, q1.length = q.length → (∀ j x, Gives (name, v) j x → q1[j]? = some x) →
            (∀ j, (∀ x, ¬ Gives (name, v) j x) → q1[j]? = q[j]?) → Fits act.length q.length (name, v) →
            limbs ((name, v) :: rest) act q = limbs rest (activate act r) q1 →
            ((limbs ((name, v) :: rest) act q).2.2 = true ↔ ∀ x ∈ (name, v) :: rest, Fits act.length q.length x) ∧
              ((limbs ((name, v) :: rest) act q).2.2 = true → (limbs ((name, v) :: rest) act q).1.length = act.length ∧
                (∀ i, (limbs ((name, v) :: rest) act q).1[i]? = some true ↔ (∃ x ∈ (name, v) :: rest, Joint x.1 i) ∨ act[i]? = some true) ∧
                Final ((name, v) :: rest) q (limbs ((name, v) :: rest) act q).2.1) := by
          intro q1 hl hg hn hf e
          obtain ⟨i1, i2⟩ := ih (activate act r) q1
          rw [e]
          refine ⟨?_, fun h => ?_⟩
          · rw [i1, a1, hl, List.forall_mem_cons]
            exact ⟨fun h => ⟨hf, h⟩, fun h => h.2⟩
          · obtain ⟨j1, j2, j3, j4⟩ := i2 h
            refine ⟨by rw [j1, a1], fun i => ?_, by rw [j3, hl], fun j => ?_⟩
            · rw [j2, hact, List.exists_mem_cons_iff]
              constructor
              · rintro (h | h | h)
                · exact Or.inl (Or.inr h)
                · exact Or.inl (Or.inl h)
                · exact Or.inr h
              · rintro ((h | h) | h)
                · exact Or.inr (Or.inl h)
                · exact Or.inl h
                · exact Or.inr (Or.inr h)
            · rcases j4 j with ⟨l1, x, l2, w, h1, h2, h3, h4⟩ | ⟨h1, h2⟩
              · exact Or.inl ⟨(name, v) :: l1, x, l2, w, by rw [h1]; rfl, h2, h3, h4⟩
              · by_cases hgv : ∃ w, Gives (name, v) j w
                · obtain ⟨w, hw⟩ := hgv
                  exact Or.inl ⟨[], (name, v), rest, w, rfl, hw, h1, by rw [h2, hg j w hw]⟩
                · have hgv : ∀ w, ¬ Gives (name, v) j w := fun w h => hgv ⟨w, h⟩
                  exact Or.inr ⟨fun y hy => (List.mem_cons.mp hy).elim (fun h => by rw [h]; exact hgv) (h1 y), by rw [h2, hn j hgv]⟩
        by_cases hv : v = .nothing
        · subst hv
          refine step q rfl ?_ (fun _ _ => rfl) ⟨r, hr, hb.mpr ha, Or.inl rfl⟩ (by rw [limbs, hr]; exact if_pos ha)
          rintro j x ⟨_, _, _, _, h | ⟨_, h, _⟩⟩ <;> cases h
        · obtain ⟨s1, s2⟩ := assign_spec hr q v
          have e0 : limbs ((name, v) :: rest) act q = match assign q r v with
              | some q => limbs rest (activate act r) q
              | none => (act, q, false) := by
            rw [limbs, hr]
            cases v with
            | nothing => exact absurd rfl hv
            | number y => exact if_pos ha
            | sequence l => exact if_pos ha
          cases hq : assign q r v with
          | some q1 =>
            obtain ⟨t1, t2, t3⟩ := s2 q1 hq
            obtain ⟨u1, u2⟩ := s1.mp ⟨q1, hq⟩
            exact step q1 t1 t2 t3 ⟨r, hr, hb.mpr ha, Or.inr ⟨u1, u2⟩⟩ (by rw [e0, hq])
          | none =>
            rw [e0, hq]
            refine ⟨⟨fun h => (by cases h), fun h => ?_⟩, fun h => (by cases h)⟩
            obtain ⟨r', h1, _, h3⟩ := h (name, v) (by simp)
            rw [hr] at h1
            cases h1
            rcases h3 with h3 | h3
            · exact absurd h3 hv
            · obtain ⟨q1, h4⟩ := s1.mpr h3
              rw [hq] at h4
              cases h4
      · have e : limbs ((name, v) :: rest) act q = (act, q, false) := by
          rw [limbs, hr]
          exact if_neg ha
        rw [e]
        refine ⟨⟨fun h => (by cases h), fun h => ?_⟩, fun h => (by cases h)⟩
        obtain ⟨r', h1, h2, _⟩ := h (name, v) (by simp)
        exact absurd (hb.mp h2) ha

/-- The size used for the flags: the one remembered by the class, or that of the feature. -/
def Size (dim : Nat) (s : S) (d : Des) (n : Nat) : Prop := s.nbDof = some n ∨ (s.nbDof = none ∧ d = .nothing ∧ n = dim)

/-- The position before the limbs are set: that given, or zeros. -/
def Start (n : Nat) (d : Des) (q : List ℝ) : Prop :=
  (d = .nothing ∧ q = List.replicate n 0) ∨ d = .tuple q ∨ d = .column q

theorem gotoq_eq (dim : Nat) (s : S) (g : GainArg) (d : Des) (kw : List (String × Vals)) {n : Nat} {q : List ℝ} (hn : Size dim s d n)
    (hq : Start n d q) : (gotoq dim s g d kw).1 = (gotoq' { s with nbDof := some n } g q kw).1 ∧
      (gotoq dim s g d kw).2.2 = (gotoq' { s with nbDof := some n } g q kw).2.2 ∧
      (d = .column q → (gotoq dim s g d kw).2.1 = some (gotoq' { s with nbDof := some n } g q kw).2.1) := by
  rcases hq with ⟨rfl, rfl⟩ | rfl | rfl
  · have : s.nbDof.getD dim = n := by
      rcases hn with h | ⟨h, _, rfl⟩ <;> simp [h]
    simp [gotoq, this]
  · have : s = { s with nbDof := some n } := by
      rcases hn with h | ⟨_, h, _⟩
      · rw [← h]
      · cases h
    rw [← this]
    simp [gotoq]
  · have : s = { s with nbDof := some n } := by
      rcases hn with h | ⟨_, h, _⟩
      · rw [← h]
      · cases h
    rw [← this]
    simp [gotoq]

/-- The call returns exactly if every limb is known and fits in the size of the class, the values given have the size of the limb or are one number
and fit in the position, and the gain is acceptable. -/
theorem C114_returns (dim : Nat) (s : S) (g : GainArg) (d : Des) (kw : List (String × Vals)) (n : Nat) (q : List ℝ) (hn : Size dim s d n)
    (hq : Start n d q) : (gotoq dim s g d kw).2.2 = true ↔ (∀ x ∈ kw, Fits n q.length x) ∧ g ≠ .other := by
  rw [(gotoq_eq dim s g d kw hn hq).2.1]
  have hl := limbs_spec kw (List.replicate n false) q
  rw [List.length_replicate] at hl
  rw [← hl.1, gotoq']
  have hg : ∀ x, (∃ h, setGain x g = .ok h) ↔ g ≠ .other := by
    intro x
    cases g with
    | sequence l => rcases l with _ | ⟨a, _ | ⟨b, _ | ⟨c, _ | ⟨d, _ | ⟨e, l⟩⟩⟩⟩⟩ <;> simp [setGain]
    | _ => simp [setGain]
  dsimp only
  rcases limbs kw (List.replicate n false) q with ⟨act, q', b⟩
  cases b with
  | false => simp
  | true =>
    dsimp only
    rw [← hg s.gain]
    cases setGain s.gain g <;> simp

/-- When the call returns, the joints that are selected are those of the limbs named and no other, the reference has the value given last for each
joint, and otherwise the one of the position given or zero; the gain is set. -/
theorem C114_posture (dim : Nat) (s : S) (g : GainArg) (d : Des) (kw : List (String × Vals)) (n : Nat) (q : List ℝ) (hn : Size dim s d n)
    (hq : Start n d q) (h : (gotoq dim s g d kw).2.2 = true) :
    (0 < n → ∀ i, Selected (gotoq dim s g d kw).1.selec i ↔ ∃ x ∈ kw, Joint x.1 i) ∧
      (∃ q', (gotoq dim s g d kw).1.ref = some q' ∧ Final kw q q' ∧ (d = .column q → (gotoq dim s g d kw).2.1 = some q')) ∧
      setGain s.gain g = .ok (gotoq dim s g d kw).1.gain ∧ (gotoq dim s g d kw).1.nbDof = some n := by
  obtain ⟨e1, e2, e3⟩ := gotoq_eq dim s g d kw hn hq
  rw [e2] at h
  rw [e1]
  have hl := limbs_spec kw (List.replicate n false) q
  rw [List.length_replicate] at hl
  rw [gotoq'] at h ⊢
  dsimp only at h ⊢
  revert h hl
  rcases hl0 : limbs kw (List.replicate n false) q with ⟨act, q', b⟩
  intro h hl
  cases b with
  | false => cases h
  | true =>
    obtain ⟨l1, l2, l3⟩ := hl.2 rfl
    dsimp only at h l1 l2 l3 ⊢
    rw [l1] at h ⊢
    cases hs : setGain s.gain g with
    | throw => rw [hs] at h; cases h
    | ub => rw [hs] at h; cases h
    | ok g' =>
      refine ⟨fun hp i => ?_, ⟨q', rfl, l3, fun hd => by rw [e3 hd]; simp [gotoq', hl0, hs]⟩, rfl, rfl⟩
      dsimp only
      rw [if_pos hp, show Flags.ofVector act = ⟨act, false⟩ from rfl, selected_iff, l2]
      refine ⟨fun h => h.elim id fun h => ?_, Or.inl⟩
      rw [List.getElem?_replicate] at h
      split at h <;> simp at h

/-- A position given before any call without one: the call does not return and nothing is set. -/
theorem C114_first_use_counterexample (dim : Nat) (s : S) (g : GainArg) (l : List ℝ) (kw : List (String × Vals)) (h : s.nbDof = none) :
    (gotoq dim s g (.tuple l) kw).2.2 = false ∧ (gotoq dim s g (.tuple l) kw).1 = s ∧ (gotoq dim s g (.column l) kw).2.2 = false := by
  simp [gotoq, gotoq', h]

/-- The size is that of the first robot of the program: a second robot of another size gets a reference of the size of the first. -/
theorem C114_second_robot_counterexample (dim n : Nat) (s : S) (hs : s.nbDof = some n) (hd : dim ≠ n) :
    (gotoq dim s .nothing .nothing []).2.2 = true ∧ ∃ q, (gotoq dim s .nothing .nothing []).1.ref = some q ∧ q.length ≠ dim := by
  have hn : Size dim s .nothing n := Or.inl hs
  have hq : Start n .nothing (List.replicate n 0) := Or.inl ⟨rfl, rfl⟩
  have h : (gotoq dim s .nothing .nothing []).2.2 = true := (C114_returns dim s _ _ _ n _ hn hq).mpr ⟨by simp, by simp⟩
  obtain ⟨q, h1, h2, _⟩ := (C114_posture dim s _ _ _ n _ hn hq h).2.1
  refine ⟨h, q, h1, ?_⟩
  rw [h2.1, List.length_replicate]
  exact Ne.symm hd

/-- The column given by the caller is modified, even by a call that does not return: here the first limb is set and the second is unknown. -/
theorem C114_caller_counterexample (dim : Nat) (s : S) (l : List ℝ) (x : ℝ) (hs : s.nbDof = some 36) (hl : l.length = 36) :
    (gotoq dim s .nothing (.column l) [("rknee", .number x), ("tail", .nothing)]).2 = (some (l.set 9 x), false) ∧
      (gotoq dim s .nothing (.column l) [("rknee", .number x), ("tail", .nothing)]).1 = s := by
  have hk : limbRange "rknee" = some [9] := rfl
  have ht : limbRange "tail" = none := rfl
  simp [gotoq, gotoq', hs, limbs, hk, ht, assign, hl, Vals.broadcast]

/-- A case: the two knees bent on a robot of thirty-six coordinates. -/
theorem C114_case (s : S) (hs : s.nbDof = none) :
    (gotoq 36 s (.number 1) .nothing [("rknee", .number 1), ("lknee", .sequence [2]), ("chest", .nothing)]).2.2 = true := by
  refine (C114_returns 36 s _ _ _ 36 (List.replicate 36 0) (Or.inr ⟨hs, rfl, rfl⟩) (Or.inl ⟨rfl, rfl⟩)).mpr ⟨?_, by simp⟩
  have hb : ∀ (n : String) (i : Nat), Joint n i → i < 36 := fun n i h => (joint_range h).2
  intro x hx
  simp only [List.mem_cons, List.not_mem_nil, or_false] at hx
  rcases hx with rfl | rfl | rfl
  · exact ⟨[9], rfl, hb _, Or.inr ⟨by simpa using hb _, Or.inl ⟨1, rfl⟩⟩⟩
  · exact ⟨[15], rfl, hb _, Or.inr ⟨by simpa using hb _, Or.inr ⟨[2], rfl, Or.inl rfl⟩⟩⟩
  · exact ⟨List.range' 18 2, rfl, hb _, Or.inl rfl⟩

end Verif.Posture
