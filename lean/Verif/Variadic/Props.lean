import Verif.Variadic.Lemmas

/-!
# Properties C46 (inputs of variadic entities) and C47 (switch)
-/
set_option linter.unusedSimpArgs false

namespace Verif.Variadic

theorem newSigs_nodup (next i k : Nat) :
    ((newSigs next i k).map Sig.name).Nodup ∧ ((newSigs next i k).map Sig.id).Nodup := by
  induction k generalizing next i with
  | zero => simp [newSigs]
  | succ k ih =>
    rw [newSigs_succ, List.map_cons, List.map_cons, List.nodup_cons, List.nodup_cons]
    refine ⟨⟨?_, (ih _ _).1⟩, ?_, (ih _ _).2⟩
    · intro h
      obtain ⟨g, hg, e⟩ := List.mem_map.mp h
      obtain ⟨j, hj, rfl⟩ := newSigs_mem hg
      have := defaultName_injective e
      omega
    · intro h
      obtain ⟨g, hg, e⟩ := List.mem_map.mp h
      obtain ⟨j, hj, rfl⟩ := newSigs_mem hg
      simp only at e
      omega

/-- **C46.** Asking for `n` inputs, when the names of the new ones are free, gives exactly `n` inputs: the first ones are the
same objects as before, the new ones are new objects called after their position, and everything is consistent. -/
theorem C46_set_number (reserved : List String) (s : State) (hs : Good reserved s) (n : Nat)
    (hfree : ∀ i, getSignalNumber s ≤ i → i < n → defaultName i ∉ s.registered) :
    ∃ s', setSignalNumber s n = (.ok (), s') ∧ Good reserved s' ∧ getSignalNumber s' = n ∧
      (∀ i, i < n → i < getSignalNumber s → s'.inputs[i]? = s.inputs[i]?) ∧
      (∀ i, i < n → getSignalNumber s ≤ i → ∃ g, s'.inputs[i]? = some (.live g) ∧ g.name = defaultName i ∧
        ∀ g', .live g' ∈ s.inputs → g'.id ≠ g.id) := by
  obtain ⟨l, h1, h2, h3, h4, h5, h6⟩ := hs
  have hlen : s.inputs.length = l.length := by rw [h1]; simp
  unfold setSignalNumber getSignalNumber at *
  rw [if_neg (by omega)]
  simp only [Int.toNat_natCast]
  by_cases hc : n ≤ l.length
  · -- shrinking
    have hsplit : s.inputs = (l.take n).map .live ++ (l.drop n).map .live := by
      rw [h1, ← List.map_append, List.take_append_drop]
    have hA : ((l.take n).map Slot.live).length = n := by simp [hc]
    have hnd : (l.map Sig.name) = (l.take n).map Sig.name ++ (l.drop n).map Sig.name := by
      rw [← List.map_append, List.take_append_drop]
    have hid : (l.map Sig.id) = (l.take n).map Sig.id ++ (l.drop n).map Sig.id := by
      rw [← List.map_append, List.take_append_drop]
    rw [hnd, List.nodup_append] at h2
    rw [hid, List.nodup_append] at h3
    obtain ⟨s', r1, r2, r3, r4, r5⟩ := removeFrom_ok (l.drop n) s _ hsplit h2.2.1 (by
      intro g hg
      rw [h5]
      exact .inr (List.mem_map.mpr ⟨g, List.mem_of_mem_drop hg, rfl⟩))
    rw [hA, List.length_drop] at r1
    rw [hlen, r1]
    have e0 : n - l.length = 0 := by omega
    simp only [Res.andThen, e0, List.replicate_zero, List.append_nil, declareFrom]
    have htake : s'.inputs.take n = (l.take n).map .live := by rw [r2, List.take_left' hA]
    refine ⟨_, rfl, ⟨l.take n, htake, h2.1, h3.1, ?_, ?_, ?_⟩, ?_, ?_, ?_⟩
    · intro g hg
      rw [r5]
      exact h4 g (List.mem_of_mem_take hg)
    · intro m
      simp only
      rw [r3, h5, hnd, List.mem_append]
      constructor
      · rintro ⟨h | h | h, h'⟩
        · exact .inl h
        · exact .inr h
        · exact absurd h h'
      · rintro (h | h)
        · refine ⟨.inl h, ?_⟩
          intro hm
          obtain ⟨g, hg, rfl⟩ := List.mem_map.mp hm
          exact (h4 g (List.mem_of_mem_drop hg)).2 h
        · exact ⟨.inr (.inl h), fun h' => h2.2.2 _ h _ h' rfl⟩
    · intro k
      simp only
      rw [r4, h6, hid, List.mem_append]
      constructor
      · rintro ⟨h | h, h'⟩
        · exact h
        · exact absurd h h'
      · intro h
        exact ⟨.inl h, fun h' => h3.2.2 _ h _ h' rfl⟩
    · simp only [htake]
      exact hA
    · intro i hi hi'
      simp only [htake]
      rw [h1, List.getElem?_map, List.getElem?_map, List.getElem?_take, if_pos hi]
    · intro i hi hi'
      omega
  · -- growing
    have e0 : l.length - n = 0 := by omega
    rw [hlen, e0]
    simp only [removeFrom, Res.andThen]
    obtain ⟨s', r1, r2, r3, r4, r5⟩ := declareFrom_ok (n - l.length)
      { s with inputs := s.inputs.take n ++ List.replicate (n - l.length) .null } l.length (l.map .live) (by simp)
      (by simp only [h1]; rw [List.take_of_length_le (by simp; omega)]) (by
        intro j hj1 hj2
        exact hfree j (by omega) (by omega))
    rw [r1]
    simp only at r2 r3 r4 r5
    have hinp : s'.inputs = (l ++ newSigs s.next l.length (n - l.length)).map .live := by rw [r2, List.map_append]
    refine ⟨_, rfl, ⟨_, hinp, ?_, ?_, ?_, ?_, ?_⟩, ?_, ?_, ?_⟩
    · rw [List.map_append, List.nodup_append]
      refine ⟨h2, (newSigs_nodup _ _ _).1, ?_⟩
      intro a ha b hb e
      subst e
      obtain ⟨g, hg, rfl⟩ := List.mem_map.mp hb
      obtain ⟨j, hj, rfl⟩ := newSigs_mem hg
      refine hfree (l.length + j) (by omega) (by omega) ?_
      rw [h5]
      exact .inr ha
    · rw [List.map_append, List.nodup_append]
      refine ⟨h3, (newSigs_nodup _ _ _).2, ?_⟩
      intro a ha b hb e
      subst e
      obtain ⟨g, hg, rfl⟩ := List.mem_map.mp hb
      obtain ⟨j, hj, rfl⟩ := newSigs_mem hg
      obtain ⟨g', hg', e⟩ := List.mem_map.mp ha
      have := (h4 g' hg').1
      simp only at e
      omega
    · intro g hg
      rcases List.mem_append.mp hg with hg | hg
      · have := h4 g hg
        exact ⟨by omega, this.2⟩
      · obtain ⟨j, hj, rfl⟩ := newSigs_mem hg
        refine ⟨by simp only; omega, ?_⟩
        have := hfree (l.length + j) (by omega) (by omega)
        rw [h5] at this
        exact fun h => this (.inl h)
    · intro m
      rw [r3, h5, List.map_append, List.mem_append]
      tauto
    · intro k
      rw [r4, h6, List.map_append, List.mem_append]
    · rw [hinp, List.length_map, List.length_append, newSigs_length]
      omega
    · intro i hi hi'
      rw [r2, h1, List.getElem?_append_left (by simp; omega)]
    · intro i hi hi'
      refine ⟨⟨s.next + (i - l.length), defaultName i⟩, ?_, rfl, ?_⟩
      · rw [r2, List.getElem?_append_right (by simp; omega), List.getElem?_map, List.length_map,
          newSigs_get _ _ _ _ (by omega)]
        simp only [Option.map_some, Option.some.injEq, Slot.live.injEq, Sig.mk.injEq, true_and]
        congr 1
        omega
      · intro g' hg'
        rw [h1] at hg'
        obtain ⟨g'', hg'', e⟩ := List.mem_map.mp hg'
        cases e
        have := (h4 _ hg'').1
        simp only
        omega

/-- The hypotheses are met: two inputs, one of them named by the user, asked to become five. -/
example : Good ["sout"] ⟨[.live ⟨0, "sin0"⟩, .live ⟨3, "a"⟩], ["a", "sin0", "sout"], [3, 0], 4⟩ ∧
    ∀ i, 2 ≤ i → i < 5 → defaultName i ∉ ["a", "sin0", "sout"] := by
  refine ⟨⟨[⟨0, "sin0"⟩, ⟨3, "a"⟩], rfl, by decide, by decide, by decide, ?_, ?_⟩, ?_⟩
  · intro n; simp; tauto
  · intro k; simp; tauto
  · intro i h1 h2
    obtain rfl | rfl | rfl : i = 2 ∨ i = 3 ∨ i = 4 := by omega
    all_goals decide

/-- **C46.** Adding an input under a free name appends a new object; under a used name it raises an exception and the inputs
stay as they were. -/
theorem C46_add (reserved : List String) (s : State) (hs : Good reserved s) (name : String) :
    (name ∉ s.registered → ∃ g s', addNamed s name = (.ok (), s') ∧ Good reserved s' ∧
      s'.inputs = s.inputs ++ [.live g] ∧ g.name = name ∧ ∀ g', .live g' ∈ s.inputs → g'.id ≠ g.id) ∧
    (name ∈ s.registered → ∃ s', addNamed s name = (.throw, s') ∧ Good reserved s' ∧ s'.inputs = s.inputs) := by
  obtain ⟨l, h1, h2, h3, h4, h5, h6⟩ := hs
  constructor
  · intro hn
    refine ⟨⟨s.next, name⟩, ⟨s.inputs ++ [.live ⟨s.next, name⟩], name :: s.registered, s.next :: s.deps, s.next + 1⟩,
      ?_, ⟨l ++ [⟨s.next, name⟩], ?_, ?_, ?_, ?_, ?_, ?_⟩, rfl, rfl, ?_⟩
    · unfold addNamed
      simp only
      rw [declare_ok _ _ hn]
      rfl
    · simp [h1]
    · rw [List.map_append, List.nodup_append]
      refine ⟨h2, by simp, ?_⟩
      intro a ha b hb e
      simp only [List.map_cons, List.map_nil, List.mem_singleton] at hb
      subst hb e
      exact hn ((h5 _).mpr (.inr ha))
    · rw [List.map_append, List.nodup_append]
      refine ⟨h3, by simp, ?_⟩
      intro a ha b hb e
      simp only [List.map_cons, List.map_nil, List.mem_singleton] at hb
      obtain ⟨g, hg, e'⟩ := List.mem_map.mp ha
      have := (h4 g hg).1
      omega
    · intro g hg
      rcases List.mem_append.mp hg with hg | hg
      · have := h4 g hg
        exact ⟨by simp only; omega, this.2⟩
      · simp only [List.mem_singleton] at hg
        subst hg
        exact ⟨by simp, fun h => hn ((h5 _).mpr (.inl h))⟩
    · intro n
      simp only [List.mem_cons, h5, List.map_append, List.mem_append, List.map_cons, List.map_nil, List.mem_singleton]
      tauto
    · intro k
      simp only [List.mem_cons, h6, List.map_append, List.mem_append, List.map_cons, List.map_nil, List.mem_singleton]
      tauto
    · intro g' hg'
      rw [h1] at hg'
      obtain ⟨g'', hg'', e⟩ := List.mem_map.mp hg'
      cases e
      have := (h4 _ hg'').1
      simp only
      omega
  · intro hn
    refine ⟨{ s with next := s.next + 1 }, ?_, ⟨l, h1, h2, h3, ?_, h5, h6⟩, rfl⟩
    · unfold addNamed declare
      simp [hn, Res.andThen]
    · intro g hg
      have := h4 g hg
      exact ⟨by simp only; omega, this.2⟩

example : "b" ∉ ["a", "sin0", "sout"] ∧ "a" ∈ ["a", "sin0", "sout"] := by decide

/-- **C46.** Removing an input, when there is one, removes the last and leaves the others. -/
theorem C46_remove (reserved : List String) (s : State) (hs : Good reserved s) (hne : getSignalNumber s ≠ 0) :
    ∃ s', removeLast s = (.ok (), s') ∧ Good reserved s' ∧ s'.inputs = s.inputs.dropLast := by
  obtain ⟨l, h1, h2, h3, h4, h5, h6⟩ := hs
  have hlen : s.inputs.length = l.length := by rw [h1]; simp
  unfold getSignalNumber at hne
  rcases List.eq_nil_or_concat l with rfl | ⟨l, g, rfl⟩
  · simp [h1] at hne
  rw [List.concat_eq_append] at *
  have hin : s.inputs = l.map .live ++ [.live g] := by rw [h1]; simp
  have hg := h4 g (by simp)
  have e := removeAt_ok s (l.map .live) [] g hin (by rw [h5]; right; simp)
  rw [List.map_append, List.nodup_append] at h2 h3
  refine ⟨⟨l.map .live, s.registered.filter (· ≠ g.name), s.deps.filter (· ≠ g.id), s.next⟩, ?_,
    ⟨l, rfl, h2.1, h3.1, ?_, ?_, ?_⟩, ?_⟩
  · unfold removeLast
    rw [if_neg hne, hlen, show (l ++ [g]).length - 1 = (l.map Slot.live).length by simp, e]
    simp [Res.andThen]
  · intro g' hg'
    exact h4 g' (by simp [hg'])
  · intro n
    simp only [ne_eq, decide_not, List.mem_filter, Bool.not_eq_eq_eq_not, Bool.not_true, decide_eq_false_iff_not, h5,
      List.map_append, List.map_cons, List.map_nil, List.mem_append, List.mem_singleton]
    constructor
    · rintro ⟨h | h | h, h'⟩
      · exact .inl h
      · exact .inr h
      · exact absurd h h'
    · rintro (h | h)
      · exact ⟨.inl h, fun e => hg.2 (e ▸ h)⟩
      · exact ⟨.inr (.inl h), fun e => h2.2.2 _ h _ (by simp) e⟩
  · intro k
    simp only [ne_eq, decide_not, List.mem_filter, Bool.not_eq_eq_eq_not, Bool.not_true, decide_eq_false_iff_not, h6,
      List.map_append, List.map_cons, List.map_nil, List.mem_append, List.mem_singleton]
    constructor
    · rintro ⟨h | h, h'⟩
      · exact h
      · exact absurd h h'
    · intro h
      exact ⟨.inl h, fun e => h3.2.2 _ h _ (by simp) e⟩
  · simp [hin]

example : getSignalNumber ⟨[.live ⟨0, "sin0"⟩], ["sin0", "sout"], [0], 1⟩ ≠ 0 := by decide

/-- The histories considered: additions under any name, free or not, removals when there is an input, and changes of
number whose new names are free. -/
inductive Reach (reserved : List String) : State → Prop where
  | new : Reach reserved (new reserved)
  | add {s : State} (name : String) : Reach reserved s → Reach reserved (addNamed s name).2
  | addDefault {s : State} : Reach reserved s → Reach reserved (addDefault s).2
  | remove {s : State} : Reach reserved s → getSignalNumber s ≠ 0 → Reach reserved (removeLast s).2
  | set {s : State} (n : Nat) : Reach reserved s →
      (∀ i, getSignalNumber s ≤ i → i < n → defaultName i ∉ s.registered) → Reach reserved (setSignalNumber s n).2

/-- **C46.** After any such history every position holds a valid input, under its own registered name, and the output
depends on exactly these. -/
theorem C46_any_history (reserved : List String) (s : State) (h : Reach reserved s) : Good reserved s := by
  induction h with
  | new => exact ⟨[], by simp [Variadic.new]⟩
  | @add s name _ ih =>
    by_cases hn : name ∈ s.registered
    · obtain ⟨s', e, g, -⟩ := (C46_add reserved s ih name).2 hn
      rw [e]; exact g
    · obtain ⟨g, s', e, g, -⟩ := (C46_add reserved s ih name).1 hn
      rw [e]; exact g
  | @addDefault s _ ih =>
    unfold Variadic.addDefault
    by_cases hn : defaultName s.inputs.length ∈ s.registered
    · obtain ⟨s', e, g, -⟩ := (C46_add reserved s ih _).2 hn
      rw [e]; exact g
    · obtain ⟨g, s', e, g, -⟩ := (C46_add reserved s ih _).1 hn
      rw [e]; exact g
  | @remove s _ hne ih =>
    obtain ⟨s', e, g, -⟩ := C46_remove reserved s ih hne
    rw [e]; exact g
  | @set s n _ hf ih =>
    obtain ⟨s', e, g, -⟩ := C46_set_number reserved s ih n hf
    rw [e]; exact g

/-- Operations that leave the naming to the entity. -/
inductive Op where
  | add
  | remove
  | set (n : Nat)
  deriving DecidableEq, Repr

/-- The number of inputs asked for; `none` once an input was removed from an entity without any. -/
def wanted (k : Nat) : Op → Option Nat
  | .add => some (k + 1)
  | .remove => if k = 0 then none else some (k - 1)
  | .set n => some n

/-- The state after one operation. -/
def apply (s : State) : Op → Res
  | .add => addDefault s
  | .remove => removeLast s
  | .set n => setSignalNumber s n

/-- A history of operations, as long as they return normally. -/
def applyAll (s : State) : List Op → Res
  | [] => (.ok (), s)
  | o :: ops => (apply s o).andThen fun s' => applyAll s' ops

/-- Every input is called after its position. -/
def Default (s : State) : Prop := ∀ i, i < getSignalNumber s → ∃ g, s.inputs[i]? = some (.live g) ∧ g.name = defaultName i

theorem registered_default (reserved : List String) (hres : ∀ i, defaultName i ∉ reserved) (s : State)
    (h : Good reserved s) (hd : Default s) (i : Nat) (hi : getSignalNumber s ≤ i) : defaultName i ∉ s.registered := by
  obtain ⟨l, h1, h2, h3, h4, h5, h6⟩ := h
  rw [h5]
  rintro (h | h)
  · exact hres i h
  · obtain ⟨g, hg, e⟩ := List.mem_map.mp h
    obtain ⟨j, hj⟩ := List.mem_iff_getElem?.mp hg
    have hjl := (List.getElem?_eq_some_iff.mp hj).1
    have hlen : getSignalNumber s = l.length := by simp [getSignalNumber, h1]
    obtain ⟨g', hg', e'⟩ := hd j (by omega)
    rw [h1, List.getElem?_map, hj] at hg'
    simp only [Option.map_some, Option.some.injEq, Slot.live.injEq] at hg'
    rw [← hg', e] at e'
    have := defaultName_injective e'
    omega

/-- **C46, entities that name their inputs themselves.** No operation on such an entity ever fails, except the removal of an
input that is not there; the number of inputs is always the one asked for and each input is called after its position. -/
theorem C46_default_names (reserved : List String) (hres : ∀ i, defaultName i ∉ reserved) (ops : List Op) (k : Nat)
    (hk : ops.foldlM wanted 0 = some k) :
    ∃ s, applyAll (new reserved) ops = (.ok (), s) ∧
      Good reserved s ∧ getSignalNumber s = k ∧ Default s := by
  have main : ∀ (ops : List Op) (s : State) (k : Nat), Good reserved s → Default s →
      ops.foldlM wanted (getSignalNumber s) = some k →
      ∃ s', applyAll s ops = (.ok (), s') ∧
        Good reserved s' ∧ getSignalNumber s' = k ∧ Default s' := by
    intro ops
    induction ops with
    | nil =>
      intro s k hg hd hk
      exact ⟨s, rfl, hg, by simpa using hk, hd⟩
    | cons o ops ih =>
      intro s k hg hd hk
      rw [List.foldlM_cons] at hk
      cases hw : wanted (getSignalNumber s) o with
      | none => rw [hw] at hk; simp at hk
      | some m =>
        rw [hw] at hk
        have step : ∃ s', apply s o = (.ok (), s') ∧ Good reserved s' ∧ getSignalNumber s' = m ∧ Default s' := by
          cases o with
          | add =>
            simp only [wanted, Option.some.injEq] at hw
            obtain ⟨g, s', e, g1, g2, g3, -⟩ := (C46_add reserved s hg _).1
              (registered_default reserved hres s hg hd _ (Nat.le_refl _))
            refine ⟨s', e, g1, ?_, ?_⟩
            · unfold getSignalNumber at *
              rw [g2, List.length_append]
              simpa using hw
            · intro i hi
              unfold getSignalNumber at hi
              rw [g2] at hi ⊢
              simp only [List.length_append, List.length_cons, List.length_nil] at hi
              by_cases hl : i < s.inputs.length
              · rw [List.getElem?_append_left hl]
                exact hd i hl
              · have : i = s.inputs.length := by omega
                subst this
                exact ⟨g, by simp, g3⟩
          | remove =>
            simp only [wanted] at hw
            split at hw
            · simp at hw
            · rename_i hne
              obtain ⟨s', e, g1, g2⟩ := C46_remove reserved s hg hne
              refine ⟨s', e, g1, ?_, ?_⟩
              · unfold getSignalNumber at *
                rw [g2]
                simpa using hw
              · intro i hi
                unfold getSignalNumber at hi
                rw [g2] at hi ⊢
                simp only [List.length_dropLast] at hi
                obtain ⟨g, e1, e2⟩ := hd i (by unfold getSignalNumber; omega)
                refine ⟨g, ?_, e2⟩
                rw [List.getElem?_dropLast, if_pos (by omega), e1]
          | set n =>
            simp only [wanted, Option.some.injEq] at hw
            obtain ⟨s', e, g1, g2, g3, g4⟩ := C46_set_number reserved s hg n
              (fun i hi _ => registered_default reserved hres s hg hd i hi)
            refine ⟨s', e, g1, g2.trans hw, ?_⟩
            intro i hi
            rw [g2] at hi
            by_cases hl : i < getSignalNumber s
            · rw [g3 i hi hl]
              exact hd i hl
            · obtain ⟨g, e1, e2, -⟩ := g4 i hi (by omega)
              exact ⟨g, e1, e2⟩
        obtain ⟨s', e, g1, g2, g3⟩ := step
        simp only [Option.bind_eq_bind, Option.bind_some] at hk
        obtain ⟨s'', e', r⟩ := ih s' k g1 g3 (by rw [g2]; exact hk)
        refine ⟨s'', ?_, r⟩
        simp only [applyAll, Res.andThen, e]
        exact e'
  exact main ops (new reserved) k (C46_any_history _ _ .new) (by intro i hi; simp [getSignalNumber, new] at hi)
    (by simpa [getSignalNumber, new] using hk)

/-- The names of the switch are not of that form. -/
theorem switch_reserved (i : Nat) : defaultName i ∉ ["sout", "selection", "boolSelection"] := by
  have h : ∀ r : String, ("sin".toList).isPrefixOf r.toList = false → defaultName i ≠ r := by
    intro r hr e
    rw [← e] at hr
    simp [defaultName, List.isPrefixOf] at hr
  simp only [List.mem_cons, List.not_mem_nil, or_false, not_or]
  exact ⟨h _ (by decide), h _ (by decide), h _ (by decide)⟩

example : [Op.set 4, .remove, .add, .set 2, .add].foldlM wanted 0 = some 3 := by decide

/-- **C46 is false without the condition on names.** After adding an input called `sin1`, asking for three inputs raises an
exception and leaves an entity that claims three inputs, one of which is the null pointer. -/
theorem C46_name_clash_counterexample :
    let s := (addNamed (new ["sout"]) "sin1").2
    (setSignalNumber s 3).1 = .throw ∧ getSignalNumber (setSignalNumber s 3).2 = 3 ∧
    getSignalIn (setSignalNumber s 3).2 2 = .ok .null ∧
    (setSignalNumber (setSignalNumber s 3).2 0).1 = .throw := by decide

/-- **C46.** Removing an input when there is none is undefined. -/
theorem C46_remove_empty_counterexample (reserved : List String) : (removeLast (new reserved)).1 = .ub := rfl

/-! ### C47 -/

/-- **C47.** The switch gives the value of the input at the selected position and only reads that one. -/
theorem C47_selected {V : Type} (reserved : List String) (s : State) (hs : Good reserved s) (access : Sig → Outcome V) (b : Option Bool)
    (k : Nat) (hk : k < getSignalNumber s) :
    ∃ g, getSignalIn s k = .ok (.live g) ∧ switchSignal s access (some k) b = access g := by
  obtain ⟨l, h1, -⟩ := hs
  unfold getSignalNumber at hk
  have hl : k < l.length := by simpa [h1] using hk
  have hget : s.inputs[k]? = some (.live l[k]) := by
    rw [h1, List.getElem?_map, List.getElem?_eq_getElem hl]
    rfl
  refine ⟨l[k], ?_, ?_⟩
  · unfold getSignalIn
    rw [if_neg (by omega)]
    simp [hget]
  · unfold switchSignal
    simp only [Outcome.bind_ok]
    rw [if_neg (by omega)]
    simp [hget]

example : Good ["sout"] ⟨[.live ⟨0, "sin0"⟩], ["sin0", "sout"], [0], 1⟩ ∧
    0 < getSignalNumber ⟨[.live ⟨0, "sin0"⟩], ["sin0", "sout"], [0], 1⟩ := by
  refine ⟨⟨[⟨0, "sin0"⟩], rfl, by decide, by decide, by decide, ?_, ?_⟩, by decide⟩
  · intro n; simp; tauto
  · intro k; simp

/-- **C47.** A selection out of range raises an exception, whatever the state. -/
theorem C47_out_of_range {V : Type} (s : State) (access : Sig → Outcome V) (b : Option Bool) (k : Int)
    (hk : k < 0 ∨ k ≥ getSignalNumber s) : switchSignal s access (some k) b = .throw := by
  unfold switchSignal
  simp only [Outcome.bind_ok]
  exact if_pos hk

/-- **C47.** Without an integer selection the boolean one selects position 0 for false and 1 for true; without any, an
exception is raised. The integer selection has priority. -/
theorem C47_boolean {V : Type} (s : State) (access : Sig → Outcome V) :
    switchSignal s access none (some false) = switchSignal s access (some 0) none ∧
    switchSignal s access none (some true) = switchSignal s access (some 1) none ∧
    switchSignal s access none none = .throw ∧
    (∀ k b, switchSignal s access (some k) (some b) = switchSignal s access (some k) none) := by
  refine ⟨?_, ?_, rfl, fun _ _ => rfl⟩ <;> rfl

end Verif.Variadic
