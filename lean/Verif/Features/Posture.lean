import Verif.Features.Lemmas
import Mathlib.Data.List.Induction
import Mathlib.Algebra.Ring.Rat

/-!
# C51: the posture feature
-/

namespace Verif.Features

variable {F : Type}

/-- A list of requests (joint, activate or not), for a state and a posture of size `n`. -/
def Posture.requests [Zero F] [One F] (p : Posture F) (n : Nat) (hist : List (Nat × Bool)) : Posture F :=
  hist.foldl (fun p r => (p.selectDof n n r.1 r.2).1) p

/-- A list of calls with any sizes. -/
def Posture.calls [Zero F] [One F] (p : Posture F) (hist : List (Nat × Nat × Nat × Bool)) : Posture F :=
  hist.foldl (fun p r => (p.selectDof r.1 r.2.1 r.2.2.1 r.2.2.2).1) p

theorem set_replicate_unitRow [Zero F] [One F] (n k : Nat) :
    (List.replicate n (0 : F)).set k 1 = unitRow n k := by
  apply List.ext_getElem
  · simp [unitRow]
  · intro i h1 h2
    simp only [unitRow, List.getElem_set, List.getElem_replicate, List.getElem_map, List.getElem_range]
    by_cases h : k = i
    · simp [h]
    · have : ¬ i = k := fun e => h e.symm
      simp [h, this]

theorem postureJac_ok [Zero F] [One F] (sel : Nat → Bool) (n : Nat) (as : List Bool) (i index : Nat) (J : List (List F))
    (hsel : ∀ k (h : k < as.length), as[k] = sel (i + k)) (hn : i + as.length ≤ n)
    (hlen : index + (pickedFrom sel i as.length).length = J.length)
    (hJ : ∀ k (h : k < J.length), index ≤ k → J[k] = List.replicate n 0) :
    postureJac as i index J = .ok (J.take index ++ (pickedFrom sel i as.length).map (unitRow n)) := by
  induction as generalizing i index J with
  | nil =>
    simp only [pickedFrom, List.length_nil, List.range'_zero, List.filter_nil, Nat.add_zero] at hlen
    simp [postureJac, pickedFrom, hlen]
  | cons a as ih =>
    have ha : a = sel i := hsel 0 (by simp)
    have hsel' : ∀ k (h : k < as.length), as[k] = sel (i + 1 + k) := by
      intro k h
      have := hsel (k + 1) (by simp; omega)
      simpa [Nat.add_assoc, Nat.add_comm 1 k] using this
    have hn' : i + 1 + as.length ≤ n := by simp at hn; omega
    rw [List.length_cons, pickedFrom_succ] at hlen ⊢
    rw [postureJac]
    cases hs : sel i with
    | false =>
      rw [ha, hs]
      simp only [hs, Bool.false_eq_true, if_false] at hlen ⊢
      exact ih _ _ _ hsel' hn' hlen hJ
    | true =>
      rw [ha, hs]
      simp only [hs, if_true, List.length_cons] at hlen ⊢
      have hc : index < J.length := by omega
      rw [rd_of_lt _ _ hc, Outcome.bind_ok, hJ index hc (le_refl _), wr_of_lt _ _ _ (by simp; omega), Outcome.bind_ok,
        wr_of_lt _ _ _ hc, Outcome.bind_ok, set_replicate_unitRow,
        ih _ _ _ hsel' hn' (by simp only [List.length_set]; omega) ?_]
      · have h1 : (J.set index (unitRow n i)).take (index + 1) = J.take index ++ [unitRow n i] := by
          rw [List.take_succ_eq_append_getElem (by simpa using hc)]
          simp [List.take_set_of_le]
        rw [h1]; simp
      · intro k h hk
        rw [List.getElem_set_ne (by omega)]
        exact hJ k (by simpa using h) (by omega)

/-- Number of active joints in the list. -/
theorem picked_set_length (act : List Bool) (d : Nat) (hd : d < act.length) (b : Bool) :
    (picked (fun i => (act.set d b).getD i false) act.length).length + (if act.getD d false then 1 else 0) =
      (picked (fun i => act.getD i false) act.length).length + (if b then 1 else 0) := by
  have key : ∀ l : List Bool, (picked (fun i => l.getD i false) l.length).length = l.countP id := by
    intro l
    induction l using List.reverseRecOn with
    | nil => rfl
    | append_singleton l a ih =>
      have h2 : picked (fun i => (l ++ [a]).getD i false) (l ++ [a]).length =
          picked (fun i => l.getD i false) l.length ++ if a then [l.length] else [] := by
        simp only [picked, List.length_append, List.length_singleton, List.range_succ, List.filter_append]
        congr 1
        · apply List.filter_congr
          intro i hi
          simp [List.getD, List.getElem?_append_left (List.mem_range.mp hi)]
        · cases a <;> simp [List.filter_cons]
      rw [h2, List.length_append, ih, List.countP_append]
      cases a <;> simp
  have h1 := key (act.set d b)
  rw [List.length_set] at h1
  rw [h1, key act]
  have h3 : act = act.take d ++ act[d] :: act.drop (d + 1) := by simp
  have h4 : act.getD d false = act[d] := by simp [List.getD, List.getElem?_eq_getElem hd]
  rw [h4, List.set_eq_take_append_cons_drop, if_pos hd]
  conv_rhs => rw [h3]
  simp only [List.countP_append, List.countP_cons, id]
  have : (List.take d act ++ act[d] :: List.drop (d + 1) act)[d]'(by rw [← h3]; exact hd) = act[d] := by simp
  omega

/-- The selection matrix of the active joints of a list. -/
def selectionRows [Zero F] [One F] (act : List Bool) : List (List F) :=
  (picked (fun i => act.getD i false) act.length).map (unitRow act.length)

/-- The number of active joints is the one in the list. -/
def Posture.Counted (p : Posture F) : Prop := p.nb = (picked (fun i => p.active.getD i false) p.active.length).length

theorem postureJac_replicate [Zero F] [One F] (act : List Bool) :
    postureJac act 0 0 (List.replicate (picked (fun i => act.getD i false) act.length).length
      (List.replicate act.length (0 : F))) = .ok (selectionRows act) := by
  rw [postureJac_ok (fun i => act.getD i false) act.length act 0 0]
  · simp [selectionRows, pickedFrom_zero]
  · intro k h; simp [List.getD, List.getElem?_eq_getElem h]
  · omega
  · rw [pickedFrom_zero]; simp
  · intro k h _; simp

/-- What a call does: refused for sizes that differ; otherwise a list of another size is replaced by an inactive one; then
a joint out of range is refused; otherwise the joint is set and the Jacobian computed again. It is never undefined. -/
theorem selectDof_cases [Zero F] [One F] (p : Posture F) (hp : p.Counted) (n m d : Nat) (c : Bool) :
    let act := if p.active.length ≠ n then List.replicate n false else p.active
    let r := p.selectDof n m d c
    r.1.Counted ∧ r.2 ≠ .ub ∧
      (n ≠ m → r = (p, .throw)) ∧
      (n = m → n ≤ d → r.2 = .throw ∧ r.1.active = act ∧ r.1.jac = p.jac ∧ r.1.jacCols = p.jacCols) ∧
      (n = m → d < n → r.2 = .ok () ∧ r.1.active = act.set d c ∧ r.1.jac = selectionRows (act.set d c) ∧ r.1.jacCols = n) := by
  intro act r
  by_cases hnm : n = m
  swap
  · have hr : r = (p, .throw) := by simp [r, Posture.selectDof, hnm]
    rw [hr]; exact ⟨hp, by simp, fun _ => rfl, fun h => absurd h hnm, fun h => absurd h hnm⟩
  subst hnm
  have hact : act.length = n := by simp only [act]; split_ifs with h <;> simp_all
  obtain ⟨p1, hp1, hp1a, hp1j, hp1c, hp1n⟩ : ∃ p1 : Posture F,
      (if p.active.length ≠ n then { p with active := List.replicate n false, nb := 0 } else p) = p1 ∧ p1.active = act ∧
      p1.jac = p.jac ∧ p1.jacCols = p.jacCols ∧ p1.Counted := by
    refine ⟨_, rfl, ?_, ?_, ?_, ?_⟩
    · simp only [act]; split_ifs <;> rfl
    · split_ifs <;> rfl
    · split_ifs <;> rfl
    · split_ifs with h
      · unfold Posture.Counted
        symm
        simp only [List.length_eq_zero_iff, picked, List.filter_eq_nil_iff, List.mem_range]
        intro i hi
        simp only [List.length_replicate] at hi
        simp [List.getD, List.getElem?_eq_getElem, hi]
      · exact hp
  by_cases hd : n ≤ d
  · have hr : r = (p1, .throw) := by
      simp only [r, Posture.selectDof, ne_eq, not_true_eq_false, if_false, ge_iff_le, hd, if_true, ← hp1]
    rw [hr]
    exact ⟨hp1n, by simp, fun h => absurd rfl h, fun _ _ => ⟨rfl, hp1a, hp1j, hp1c⟩, fun _ h => absurd h (by omega)⟩
  · have hdn : d < n := by omega
    obtain ⟨p2, hp2, hp2a, hp2n⟩ : ∃ p2 : Posture F,
        (if c then (if !(p1.active.getD d false) then { p1 with active := p1.active.set d true, nb := p1.nb + 1 } else p1)
        else (if p1.active.getD d false then { p1 with active := p1.active.set d false, nb := p1.nb - 1 } else p1)) = p2 ∧
        p2.active = act.set d c ∧ p2.Counted := by
      have hset := picked_set_length act d (by omega) c
      have hsame : ∀ b, act.getD d false = b → act.set d b = act := by
        intro b hb
        have : act[d]'(by omega) = b := by
          rw [← hb]; simp [List.getD, List.getElem?_eq_getElem (show d < act.length by omega)]
        rw [← this]; simp
      refine ⟨_, rfl, ?_, ?_⟩
      · rw [hp1a]
        cases c <;> cases hg : act.getD d false <;> simp [hp1a, hsame _ hg]
      · unfold Posture.Counted at hp1n ⊢
        rw [hp1a] at hp1n ⊢
        cases c <;> cases hg : act.getD d false <;> simp only [hg] at hset <;> simp [hp1a, hp1n] <;> simp at hset <;> omega
    have hJ := postureJac_replicate (F := F) (act.set d c)
    rw [List.length_set, hact] at hJ
    unfold Posture.Counted at hp2n
    have hr : r = ({ p2 with jac := selectionRows (act.set d c), jacCols := n }, .ok ()) := by
      simp only [r, Posture.selectDof, ne_eq, not_true_eq_false, if_false, ge_iff_le, hd]
      rw [show (if ¬p.active.length = n then { p with active := List.replicate n false, nb := 0 } else p) = p1 from hp1]
      rw [hp2, hp2n, hp2a, List.length_set, hact, hJ]
    rw [hr]
    exact ⟨hp2n, by simp, fun h => absurd rfl h, fun _ h => absurd h (by omega), fun _ _ => ⟨rfl, hp2a, rfl, rfl⟩⟩

/-! ### Properties -/

/-- After any calls with any sizes, failing or not, the dimension is the number of active joints. -/
theorem C51_dimension [Zero F] [One F] (hist : List (Nat × Nat × Nat × Bool)) :
    let p := (Posture.new : Posture F).calls hist
    p.nb = (picked (fun i => p.active.getD i false) p.active.length).length := by
  have h : ∀ p : Posture F, p.Counted → (p.calls hist).Counted := by
    induction hist with
    | nil => intro p hp; exact hp
    | cons r rs ih => intro p hp; exact ih _ (selectDof_cases p hp r.1 r.2.1 r.2.2.1 r.2.2.2).1
  exact h _ rfl

/-- No call is undefined, whatever the calls before. -/
theorem C51_defined [Zero F] [One F] (hist : List (Nat × Nat × Nat × Bool)) (n m d : Nat) (c : Bool) :
    (((Posture.new : Posture F).calls hist).selectDof n m d c).2 ≠ .ub :=
  (selectDof_cases _ (C51_dimension hist) n m d c).2.1

/-- The error lists state minus posture for the active joints, in index order. -/
theorem C51_error [Sub F] [Zero F] (p : Posture F) (state posture res : List F)
    (hs : p.active.length ≤ state.length) (hq : p.active.length ≤ posture.length)
    (hres : res.length = (picked (fun i => p.active.getD i false) p.active.length).length) :
    p.error state posture res =
      .ok ((picked (fun i => p.active.getD i false) p.active.length).map fun i => state.getD i 0 - posture.getD i 0) := by
  refine fillLoop_exact _ _ (fun k hk => ?_) hres
  have := (mem_picked.mp hk).1
  rw [rd_getD _ _ 0 (by omega), rd_getD _ _ 0 (by omega)]; rfl

/-- The derivative of the error lists the opposite of the derivative of the posture for the active joints. -/
theorem C51_error_dot [Neg F] [Zero F] (p : Posture F) (postureDot res : List F)
    (hs : p.active.length ≤ postureDot.length)
    (hres : res.length = (picked (fun i => p.active.getD i false) p.active.length).length) :
    p.errorDot postureDot res =
      .ok ((picked (fun i => p.active.getD i false) p.active.length).map fun i => -postureDot.getD i 0) := by
  refine fillLoop_exact _ _ (fun k hk => ?_) hres
  have := (mem_picked.mp hk).1
  rw [rd_getD _ _ 0 (by omega)]; rfl

theorem wanted_snoc (hist : List (Nat × Bool)) (r : Nat × Bool) (i : Nat) :
    wanted (hist ++ [r]) i = if r.1 = i then r.2 else wanted hist i := by
  unfold wanted
  rw [List.reverse_append]
  by_cases h : r.1 = i <;> simp [List.find?_cons, h]

/-- After any requests, with a constant size: a joint is active exactly when the last request about it asked so, and the
Jacobian is the selection matrix of the active joints (empty before the first accepted request). -/
theorem C51_history [Zero F] [One F] (n : Nat) (hist : List (Nat × Bool)) :
    let p := (Posture.new : Posture F).requests n hist
    (∀ i, i < n → p.active.getD i false = wanted hist i) ∧
    p.jac = (picked (wanted hist) n).map (unitRow n) ∧
    p.nb = (picked (wanted hist) n).length ∧
    (hist ≠ [] → p.active.length = n) := by
  have key : ∀ hist : List (Nat × Bool),
      let p := (Posture.new : Posture F).requests n hist
      p.Counted ∧ (∀ i, i < n → p.active.getD i false = wanted hist i) ∧
      p.jac = (picked (wanted hist) n).map (unitRow n) ∧ (p.active = [] ∨ p.active.length = n) ∧
      (hist ≠ [] → p.active.length = n) := by
    intro hist
    induction hist using List.reverseRecOn with
    | nil =>
      refine ⟨rfl, ?_, ?_, Or.inl rfl, fun h => absurd rfl h⟩
      · intro i _; simp [Posture.requests, Posture.new, wanted]
      · have : picked (wanted []) n = [] := by simp [picked, wanted]
        rw [this]; rfl
    | append_singleton hist r ih =>
      obtain ⟨hc, hact, hjac, hlen, _⟩ := ih
      rw [Posture.requests, List.foldl_append] at *
      simp only [List.foldl_cons, List.foldl_nil]
      set p := List.foldl (fun (p : Posture F) r => (p.selectDof n n r.1 r.2).1) Posture.new hist with hp
      obtain ⟨h1, _, _, h4, h5⟩ := selectDof_cases p hc n n r.1 r.2
      set act := (if p.active.length ≠ n then List.replicate n false else p.active) with hactdef
      have hal : act.length = n := by rw [hactdef]; split_ifs with h <;> simp_all
      have hag : ∀ i, i < n → act.getD i false = wanted hist i := by
        intro i hi
        rw [← hact i hi, hactdef]
        split_ifs with h
        · have : p.active = [] := by rcases hlen with h' | h'; exacts [h', absurd h' h]
          rw [this]; simp [List.getD, List.getElem?_eq_getElem, hi]
        · rfl
      by_cases hd : n ≤ r.1
      · obtain ⟨_, ha, hj, _⟩ := h4 rfl hd
        have hw : ∀ i, i < n → wanted (hist ++ [r]) i = wanted hist i := by
          intro i hi; rw [wanted_snoc, if_neg (by omega)]
        have hpk : picked (wanted (hist ++ [r])) n = picked (wanted hist) n := by
          apply List.filter_congr; intro i hi; exact hw i (List.mem_range.mp hi)
        refine ⟨h1, ?_, ?_, Or.inr (by rw [ha, hal]), fun _ => by rw [ha, hal]⟩
        · intro i hi; rw [ha, hw i hi, hag i hi]
        · rw [hj, hpk, hjac]
      · obtain ⟨_, ha, hj, _⟩ := h5 rfl (by omega)
        have hw : ∀ i, i < n → (act.set r.1 r.2).getD i false = wanted (hist ++ [r]) i := by
          intro i hi
          rw [wanted_snoc, ← hag i hi]
          by_cases h : r.1 = i
          · subst h; simp [List.getD, hal, hi]
          · simp [List.getD, List.getElem?_set_ne h, h]
        refine ⟨h1, ?_, ?_, Or.inr (by rw [ha, List.length_set, hal]), fun _ => by rw [ha, List.length_set, hal]⟩
        · intro i hi; rw [ha, hw i hi]
        · rw [hj, selectionRows, List.length_set, hal]
          congr 1
          apply List.filter_congr; intro i hi; exact hw i (List.mem_range.mp hi)
  obtain ⟨hc, hact, hjac, hlen, hne⟩ := key hist
  refine ⟨hact, hjac, ?_, hne⟩
  rw [hc]
  by_cases hh : hist = []
  · subst hh
    have : picked (wanted []) n = [] := by simp [picked, wanted]
    rw [this]; rfl
  · rw [hne hh]
    congr 1
    apply List.filter_congr; intro i hi; exact hact i (List.mem_range.mp hi)

/-- Dimension and Jacobian can disagree: after a change of size a refused request resets the active joints but keeps the
Jacobian of the previous ones. -/
theorem C51_stale_jacobian_counterexample :
    let p := (Posture.new : Posture ℚ).calls [(1, 1, 0, true), (2, 2, 5, true)]
    p.nb = 0 ∧ p.jac = [[1]] := by
  simp [Posture.calls, Posture.new, Posture.selectDof, postureJac, rd, wr]

/-- A concrete case: joints 2 and 0 of three activated, then 2 deactivated, with a refused request. -/
example : let p := (Posture.new : Posture ℚ).requests 3 [(2, true), (0, true), (7, true), (2, false)]
    p.jac = [[1, 0, 0]] ∧ p.nb = 1 := by
  obtain ⟨_, h2, h3, _⟩ := C51_history (F := ℚ) 3 [(2, true), (0, true), (7, true), (2, false)]
  exact ⟨by rw [h2]; rfl, by rw [h3]; rfl⟩

end Verif.Features
