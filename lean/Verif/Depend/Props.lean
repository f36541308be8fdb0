import Verif.Depend.Model

/-!
# Which answers are up to date
-/

namespace Verif.Depend

open Verif.Features Verif.Spatial Verif.Geometry Verif.Point6d Matrix

/-! ### One output -/

section Cache

variable {σ : Type} {V : σ → Type} {β : Type}

/-- The value of `f` is determined by the inputs of the list. -/
def DependsOnlyOn (f : (∀ i, V i) → β) (l : List σ) : Prop := ∀ x y : ∀ i, V i, (∀ i ∈ l, x i = y i) → f x = f y

/-- The answers that are computed each time from the present inputs. -/
def expected (f : (∀ i, V i) → β) : (∀ i, V i) → List (Op V) → List β
  | _, [] => []
  | x, .set who y :: ops => expected f (fun i => if who i then y i else x i) ops
  | x, .ask :: ops => f x :: expected f x ops

/-- Whatever is set and asked, the output answers the value for the present inputs. -/
def UpToDate (o : Output V β) : Prop := ∀ (x : ∀ i, V i) (ops : List (Op V)), o.answers (Cache.new x) ops = expected o.compute x ops

/-- The value kept was computed from inputs that agree with the present ones where these have not been set since. -/
def Cache.Sound (f : (∀ i, V i) → β) (c : Cache V β) : Prop :=
  ∀ b, c.value = some b → ∃ z : ∀ i, V i, b = f z ∧ ∀ i, c.set i = false → z i = c.inputs i

theorem answers_expected {o : Output V β} (ho : DependsOnlyOn o.compute o.deps) :
    ∀ (ops : List (Op V)) (c : Cache V β), c.Sound o.compute → o.answers c ops = expected o.compute c.inputs ops
  | [], _, _ => rfl
  | .set who x :: ops, c, hc => by
    have h : Cache.Sound o.compute (⟨merge who x c.inputs, fun i => who i || c.set i, c.value⟩ : Cache V β) := by
      intro b hb
      obtain ⟨z, hz, he⟩ := hc b hb
      refine ⟨z, hz, fun i hi => ?_⟩
      simp only [Bool.or_eq_false_iff] at hi
      simp [merge, hi.1, he i hi.2]
    exact answers_expected ho ops _ h
  | .ask :: ops, c, hc => by
    have fresh : Cache.Sound o.compute (⟨c.inputs, fun _ => false, some (o.compute c.inputs)⟩ : Cache V β) := by
      intro b hb
      exact ⟨c.inputs, by simpa using hb.symm, fun _ _ => rfl⟩
    have again := answers_expected ho ops _ fresh
    obtain ⟨inputs, set, value⟩ := c
    cases value with
    | none => simpa [Output.answers, Output.step, expected] using again
    | some b =>
      by_cases hs : o.stale (⟨inputs, set, some b⟩ : Cache V β) = true
      · simpa [Output.answers, Output.step, expected, hs] using again
      · have same := answers_expected ho ops _ hc
        obtain ⟨z, hz, he⟩ := hc b rfl
        have hd : ∀ i ∈ o.deps, set i = false := by
          intro i hi
          cases h : set i with
          | false => rfl
          | true => exact absurd (by simp only [Output.stale, Option.isNone_some, Bool.false_or, List.any_eq_true]; exact ⟨i, hi, h⟩) hs
        have hb : b = o.compute inputs := hz.trans (ho z inputs fun i hi => he i (hd i hi))
        simp only [Output.answers, Output.step, expected, hs, if_false, List.singleton_append, Bool.false_eq_true]
        rw [same, hb]

/-- **C120.** The answers of an output are up to date after all histories exactly when it declares all the inputs that its value depends
on. -/
theorem C120_iff (o : Output V β) : UpToDate o ↔ DependsOnlyOn o.compute o.deps := by
  classical
  constructor
  · intro h x y hxy
    have := h x [.ask, .set (fun i => decide (i ∉ o.deps)) y, .ask]
    have hy : (fun i => if decide (i ∉ o.deps) = true then y i else x i) = y := by
      funext i
      by_cases hi : i ∈ o.deps
      · simp [hi, hxy i hi]
      · simp [hi]
    simp only [expected, hy] at this
    have hs : o.deps.any (fun i => decide (i ∉ o.deps) || false) = false := by
      simp only [Bool.or_false, List.any_eq_false, decide_eq_true_eq, not_not]
      exact fun i hi => hi
    simp only [Output.answers, Output.step, Cache.new, Output.stale, Option.isNone_some, Bool.false_or, hs, List.append_nil,
      List.nil_append, List.singleton_append, Bool.false_eq_true, if_false, List.cons.injEq, true_and, and_true] at this
    exact this
  · intro h x ops
    exact answers_expected h ops (Cache.new x) (by intro b hb; simp [Cache.new] at hb)

/-- The output does not declare the input `i`, and its value depends on it. -/
def Forgets [DecidableEq σ] (o : Output V β) (i : σ) : Prop := i ∉ o.deps ∧ ∃ (x : ∀ i, V i) (v : V i), o.compute (Function.update x i v) ≠ o.compute x

/-- **C120.** When an output forgets an input, an answer after this input alone is set is the one from before, and a wrong one. -/
theorem C120_forgets [DecidableEq σ] {o : Output V β} {i : σ} (h : Forgets o i) :
    ∃ (x : ∀ i, V i) (v : V i), o.answers (Cache.new x) [.ask, .set (· = i) (Function.update x i v), .ask] = [o.compute x, o.compute x] ∧
      expected o.compute x [.ask, .set (· = i) (Function.update x i v), .ask] = [o.compute x, o.compute (Function.update x i v)] ∧
      o.compute (Function.update x i v) ≠ o.compute x := by
  obtain ⟨hi, x, v, hne⟩ := h
  refine ⟨x, v, ?_, ?_, hne⟩
  · have hs : o.deps.any (fun j => decide (j = i) || false) = false := by
      simp only [Bool.or_false, List.any_eq_false, decide_eq_true_eq]
      rintro j hj rfl
      exact hi hj
    simp only [Output.answers, Output.step, Cache.new, Output.stale, Option.isNone_some, Bool.false_or, hs, List.append_nil,
      List.nil_append, List.singleton_append, Bool.false_eq_true, if_false]
  · have : (fun j => if decide (j = i) = true then Function.update x i v j else x j) = Function.update x i v := by
      funext j
      by_cases hj : j = i
      · subst hj; simp
      · simp [hj]
    simp only [expected, this]

/-- **C120.** An output that forgets an input is not up to date. -/
theorem C120_forgets_stale [DecidableEq σ] {o : Output V β} {i : σ} (h : Forgets o i) : ¬UpToDate o := by
  intro hu
  obtain ⟨x, v, ha, he, hne⟩ := C120_forgets h
  rw [hu, he] at ha
  simp only [List.cons.injEq, true_and, and_true] at ha
  exact hne ha

end Cache

/-! ### A graph of outputs -/

section Network

variable {σ A B : Type}

/-- The values of the outputs that the inputs determine. -/
def Solves (g : Nat → Node σ A B) (x : σ → A) (v : Nat → B) : Prop := ∀ k, v k = (g k).compute x v

/-- No output depends on itself, directly or not: they are numbered. -/
def Acyclic (g : Nat → Node σ A B) : Prop := ∀ k, (∀ j ∈ (g k).nodes, j < k) ∧ ∀ j ∈ (g k).reads, j < k

/-- The outputs read are the ones listed. -/
def ReadsListed (g : Nat → Node σ A B) : Prop :=
  ∀ k x u v, (∀ j ∈ (g k).reads, u j = v j) → (g k).compute x u = (g k).compute x v

/-- Every output declares the inputs and the outputs that its value depends on. -/
def Complete (g : Nat → Node σ A B) : Prop :=
  ∀ k x y u v, (∀ i ∈ (g k).inputs, x i = y i) → (∀ j ∈ (g k).nodes, u j = v j) → (g k).compute x u = (g k).compute y v

/-- No date is in the future. -/
def Net.Dated (s : Net σ A B) : Prop := (∀ i, s.set i ≤ s.date) ∧ ∀ k b d, s.value k = some (b, d) → d ≤ s.date

/-- The values up to date are computed from the present inputs and the present values of the declared outputs. -/
def Net.Sound (g : Nat → Node σ A B) (s : Net σ A B) : Prop :=
  ∀ k b d, s.value k = some (b, d) → ¬Needs g s k →
    ∀ w : Nat → B, (∀ j ∈ (g k).nodes, ∀ c e, s.value j = some (c, e) → w j = c) → b = (g k).compute s.inputs w

theorem needs_change {g : Nat → Node σ A B} {s : Net σ A B} (hd : s.Dated) (who : σ → Bool) (x : σ → A) {k : Nat} (h : Needs g s k) :
    Needs g (s.change who x) k := by
  induction h with
  | never h => exact .never h
  | @input k b d i h hi hlt =>
    refine .input h hi ?_
    show d < if who i then s.date + 1 else s.set i
    have := hd.2 k b d h
    split <;> omega
  | newer h hj hc hlt => exact .newer h hj hc hlt
  | lower hj _ ih => exact .lower hj ih

theorem needs_store {g : Nat → Node σ A B} {s : Net σ A B} (hd : s.Dated) {k : Nat} (b : B) {l : Nat} (h : Needs g s l) :
    Needs g (s.store k b) l ∨ l = k := by
  have other : ∀ {l : Nat}, l ≠ k → (s.store k b).value l = s.value l := fun hl => by simp [Net.store, hl]
  have self : (s.store k b).value k = some (b, s.date + 1) := by simp [Net.store]
  have above : ∀ {l : Nat}, l ≠ k → k ∈ (g l).nodes → Needs g (s.store k b) l := by
    intro l hl hj
    cases hv : s.value l with
    | none => exact .never (by rw [other hl, hv])
    | some p => exact .newer (b := p.1) (d := p.2) (by rw [other hl, hv]) hj self (by have := hd.2 l p.1 p.2 hv; omega)
  induction h with
  | @never l h =>
    by_cases hl : l = k
    · exact .inr hl
    · exact .inl (.never (by rw [other hl, h]))
  | @input l c d i h hi hlt =>
    by_cases hl : l = k
    · exact .inr hl
    · exact .inl (.input (by rw [other hl, h]) hi hlt)
  | @newer l j c c' d e h hj hc hlt =>
    by_cases hl : l = k
    · exact .inr hl
    · by_cases hjk : j = k
      · subst hjk; exact .inl (above hl hj)
      · exact .inl (.newer (by rw [other hl, h]) hj (by rw [other hjk, hc]) hlt)
  | @lower l j hj _ ih =>
    by_cases hl : l = k
    · exact .inr hl
    · rcases ih with ih | rfl
      · exact .inl (.lower hj ih)
      · exact .inl (above hl hj)

theorem reached_inv {g : Nat → Node σ A B} (ha : Acyclic g) (hr : ReadsListed g) (hc : Complete g) {s : Net σ A B} (hs : Reached g s) :
    s.Dated ∧ s.Sound g := by
  induction hs with
  | start x => exact ⟨⟨fun _ => Nat.le_refl _, by simp⟩, by intro k b d h; simp at h⟩
  | @step s t a _ h ih =>
    obtain ⟨hd, hsound⟩ := ih
    cases h with
    | change who x =>
      refine ⟨⟨fun i => ?_, fun k b d h => ?_⟩, ?_⟩
      · have := hd.1 i
        simp only [Net.change]
        split <;> omega
      · have := hd.2 k b d h
        simp only [Net.change]; omega
      · intro k b d h hn w hw
        have hold := hsound k b d h (fun hk => hn (needs_change hd who x hk)) w hw
        rw [hold]
        refine hc k _ _ _ _ (fun i hi => ?_) fun _ _ => rfl
        simp only [Net.change]
        by_cases hi' : who i = true
        · exact absurd (.input h hi (by
            have := hd.2 k b d h
            simp only [Net.change, hi', if_true]; omega)) hn
        · simp [hi']
    | compute k w0 hw0 =>
      refine ⟨⟨fun i => ?_, fun l b d h => ?_⟩, ?_⟩
      · have := hd.1 i
        simp only [Net.store]; omega
      · simp only [Net.store] at h ⊢
        split at h
        · simp only [Option.some.injEq, Prod.mk.injEq] at h; omega
        · have := hd.2 l b d h; omega
      · intro l b d h hn w hw
        by_cases hl : l = k
        · subst hl
          have hb : (g l).compute s.inputs w0 = b := by
            simp only [Net.store, if_true, Option.some.injEq, Prod.mk.injEq] at h
            exact h.1
          rw [← hb]
          show (g l).compute s.inputs w0 = (g l).compute s.inputs w
          classical
          refine Eq.trans (hr l s.inputs w0 (fun j => if j ∈ (g l).nodes then w j else w0 j) fun j hj => ?_)
            (hc l _ _ _ _ (fun _ _ => rfl) fun j hj => by simp [hj])
          by_cases hjn : j ∈ (g l).nodes
          · obtain ⟨_, e, he⟩ := hw0 j hj
            have hjl : j ≠ l := Nat.ne_of_lt ((ha l).1 j hjn)
            simp only [hjn, if_true]
            exact (hw j hjn (w0 j) e (by simp [Net.store, hjl, he])).symm
          · simp [hjn]
        · have hl' : s.value l = some (b, d) := by simpa [Net.store, hl] using h
          refine hsound l b d hl' (fun hk => ?_) w fun j hj c e hv => ?_
          · rcases needs_store hd _ hk with h' | h'
            · exact hn h'
            · exact hl h'
          · by_cases hjk : j = k
            · subst hjk
              exact absurd (.newer h hj (c := (g j).compute s.inputs w0) (e := s.date + 1)
                (by simp [Net.store]) (by have := hd.2 l b d hl'; omega)) hn
            · exact hw j hj c e (by simpa [Net.store, hjk] using hv)
    | cached k hn h => exact ⟨hd, hsound⟩

theorem value_of_not_needs {g : Nat → Node σ A B} {s : Net σ A B} {k : Nat} (h : ¬Needs g s k) : ∃ b d, s.value k = some (b, d) := by
  cases hv : s.value k with
  | none => exact absurd (.never hv) h
  | some p => exact ⟨p.1, p.2, rfl⟩

theorem sound_value {g : Nat → Node σ A B} (ha : Acyclic g) {s : Net σ A B} (hs : s.Sound g) {v : Nat → B} (hv : Solves g s.inputs v)
    (k : Nat) : ∀ {b : B} {d : Nat}, s.value k = some (b, d) → ¬Needs g s k → b = v k := by
  induction k using Nat.strongRecOn with
  | _ k ih =>
    intro b d h hn
    rw [hs k b d h hn v fun j hj c e hc => (ih j ((ha k).1 j hj) hc fun hj' => hn (.lower hj hj')).symm, ← hv k]

/-- **C120.** In a graph where every output declares what its value depends on, every answer, however the outputs are asked and the inputs
set, is the value that the present inputs determine. -/
theorem C120_graph {g : Nat → Node σ A B} (ha : Acyclic g) (hr : ReadsListed g) (hc : Complete g) {s t : Net σ A B} (hs : Reached g s)
    {k : Nat} {b : B} (h : NetStep g s t (some (k, b))) {v : Nat → B} (hv : Solves g s.inputs v) : b = v k := by
  obtain ⟨_, hsound⟩ := reached_inv ha hr hc hs
  cases h with
  | compute k w hw =>
    rw [hv k]
    refine hr k _ _ _ fun j hj => ?_
    obtain ⟨hn, d, hd⟩ := hw j hj
    exact sound_value ha hsound hv j hd hn
  | cached k hn h => exact sound_value ha hsound hv k h hn

/-- Some steps. -/
inductive Steps (g : Nat → Node σ A B) : Net σ A B → Net σ A B → Prop
  | refl (s : Net σ A B) : Steps g s s
  | tail {s t u : Net σ A B} {a : Option (Nat × B)} (h : Steps g s t) (ht : NetStep g t u a) : Steps g s u

theorem Steps.trans {g : Nat → Node σ A B} {s t u : Net σ A B} (h : Steps g s t) (h' : Steps g t u) : Steps g s u := by
  induction h' with
  | refl => exact h
  | tail _ ht ih => exact .tail ih ht

theorem steps_reached {g : Nat → Node σ A B} {s t : Net σ A B} (h : Steps g s t) (hs : Reached g s) : Reached g t := by
  induction h with
  | refl => exact hs
  | tail _ ht ih => exact .step ih ht

theorem not_needs_store {g : Nat → Node σ A B} {s : Net σ A B} {k : Nat} (hk : Needs g s k) (b : B) {l : Nat} (h : Needs g (s.store k b) l) :
    Needs g s l ∨ l = k := by
  induction h with
  | @never l h =>
    by_cases hl : l = k
    · exact .inr hl
    · exact .inl (.never (by simpa [Net.store, hl] using h))
  | @input l c d i h hi hlt =>
    by_cases hl : l = k
    · exact .inr hl
    · exact .inl (.input (by simpa [Net.store, hl] using h) hi hlt)
  | @newer l j c c' d e h hj hc hlt =>
    by_cases hl : l = k
    · exact .inr hl
    · by_cases hjk : j = k
      · exact .inl (.lower hj (hjk ▸ hk))
      · exact .inl (.newer (by simpa [Net.store, hl] using h) hj (by simpa [Net.store, hjk] using hc) hlt)
  | @lower l j hj _ ih =>
    rcases ih with ih | rfl
    · exact .inl (.lower hj ih)
    · exact .inl (.lower hj hk)

/-- **C120.** Asking ends: from any state reached, when the outputs read what they declare, some computations bring any output up to date
without setting inputs, and leave up to date the ones that are. -/
theorem C120_progress [Nonempty B] {g : Nat → Node σ A B} (ha : Acyclic g) (hrn : ∀ k, ∀ j ∈ (g k).nodes, j ∈ (g k).reads)
    (hr : ReadsListed g) (hc : Complete g) {s : Net σ A B} (hs : Reached g s) (k : Nat) :
    ∃ t, Steps g s t ∧ t.inputs = s.inputs ∧ ¬Needs g t k ∧ ∀ l, ¬Needs g s l → ¬Needs g t l := by
  induction k using Nat.strongRecOn generalizing s with
  | _ k ih =>
    by_cases hk : Needs g s k
    · -- the outputs read, one after the other
      have all : ∀ l : List Nat, (∀ j ∈ l, j < k) → ∀ {s : Net σ A B}, Reached g s → ∃ t, Steps g s t ∧ t.inputs = s.inputs ∧
          (∀ j ∈ l, ¬Needs g t j) ∧ ∀ m, ¬Needs g s m → ¬Needs g t m := by
        intro l
        induction l with
        | nil => exact fun _ s _ => ⟨s, .refl s, rfl, by simp, fun _ h => h⟩
        | cons j l ihl =>
          intro hl s hs
          obtain ⟨t, h1, h2, h3, h4⟩ := ih j (hl j (List.mem_cons_self ..)) hs
          obtain ⟨u, k1, k2, k3, k4⟩ := ihl (fun i hi => hl i (List.mem_cons_of_mem _ hi)) (steps_reached h1 hs)
          refine ⟨u, h1.trans k1, k2.trans h2, ?_, fun m hm => k4 m (h4 m hm)⟩
          intro i hi
          rcases List.mem_cons.mp hi with rfl | hi
          · exact k4 _ h3
          · exact k3 i hi
      obtain ⟨t, h1, h2, h3, h4⟩ := all (g k).reads (ha k).2 hs
      by_cases hkt : Needs g t k
      · obtain ⟨hd, _⟩ := reached_inv ha hr hc (steps_reached h1 hs)
        have hw : ∀ j ∈ (g k).reads, ¬Needs g t j ∧ ∃ d, t.value j = some (((t.value j).map Prod.fst).getD (Classical.arbitrary B), d) := by
          intro j hj
          obtain ⟨b, d, hv⟩ := value_of_not_needs (h3 j hj)
          exact ⟨h3 j hj, d, by simp [hv]⟩
        refine ⟨_, h1.tail (.compute t k _ hw), h2, ?_, fun l hl hl' => ?_⟩
        · intro h
          cases h with
          | never h => simp [Net.store] at h
          | @input _ b d i h hi hlt =>
            simp only [Net.store, if_true, Option.some.injEq, Prod.mk.injEq] at h hlt
            have := hd.1 i
            omega
          | @newer _ j b c d e h hj hc' hlt =>
            have hjk : j ≠ k := Nat.ne_of_lt ((ha k).1 j hj)
            simp only [Net.store, if_true, Option.some.injEq, Prod.mk.injEq] at h
            have hc'' : t.value j = some (c, e) := by simpa [Net.store, hjk] using hc'
            have := hd.2 j c e hc''
            omega
          | @lower _ j hj h =>
            rcases not_needs_store hkt _ h with h' | h'
            · exact h3 j (hrn k j hj) h'
            · exact absurd h' (Nat.ne_of_lt ((ha k).1 j hj))
        · rcases not_needs_store hkt _ hl' with h' | h'
          · exact h4 l hl h'
          · exact hl (h' ▸ hk)
      · exact ⟨t, h1, h2, hkt, h4⟩
    · exact ⟨s, .refl s, rfl, hk, fun _ h => h⟩

end Network

end Verif.Depend
