import Verif.Loop.Parts

/-!
# C154: a posture given by several features of one task is reached
-/

namespace Verif.Loop

open Matrix Verif.Sot Verif.Features Verif.Device Filter Topology

section
variable (svd : ∀ {m c : ℕ} (A : Matrix (Fin m) (Fin c) ℝ), Svd A) (maxSq : ℝ)

/-- The robot has at least six joints, the threshold of the stack is below one, the features are for different joints, after the first
six. The device is driven in velocity, its state is `q` and can be checked. If it checks its bounds, its joints are within them, and so
is the posture. -/
structure PartsSetup (N : Nat) (th : ℝ) (ff : List (Option ℝ) → List (Option ℝ) → ℝ → (Fin 6 → Option ℝ)) (parts : List PartOf)
    (target : List ℝ) (sel : Flags.Flags) (dt : ℝ) (d : Dev ℝ) (q : List ℝ) : Prop where
  joints : 6 ≤ N
  threshold : 0 ≤ th ∧ th < 1
  split : Split N parts target
  size : q.length = N
  base : BaseNumbers ff dt
  noBase : ∀ j, MovedBy parts sel j → 6 ≤ j
  mode : d.mode = .oneInteg
  usable : Usable d
  state : d.state = nums q
  shown : d.stateSOUT = nums q
  inside : ∀ i, 6 ≤ i → i < N → Inside d i (q.getD i 0)
  targetInside : ∀ i, i < N → MovedBy parts sel i → Inside d i (target.getD i 0)

variable {N : Nat} {th : ℝ} {ff : List (Option ℝ) → List (Option ℝ) → ℝ → (Fin 6 → Option ℝ)} {parts : List PartOf} {target : List ℝ}
  {gain : ℝ} {sel : Flags.Flags} {dt : ℝ} {d : Dev ℝ} {q : List ℝ}

theorem PartsSetup.inv (h : PartsSetup N th ff parts target sel dt d q) :
    PInv N parts d (start (partsLoop svd N th maxSq ff parts gain sel dt) d) q :=
  ⟨.refl d, h.usable, h.state, h.shown, h.size, .new, rfl, good_new _ _⟩

theorem partsSq_le {w w' : Nat → ℝ} (h : ∀ j, j < N → MovedBy parts sel j → (w j) ^ 2 ≤ (w' j) ^ 2) :
    partsSq N parts sel w ≤ partsSq N parts sel w' := by
  unfold partsSq
  apply Finset.sum_le_sum
  intro j _
  by_cases hm : MovedBy parts sel j.val
  · rw [if_pos hm, if_pos hm]; exact h j.val j.isLt hm
  · rw [if_neg hm, if_neg hm]

/-- One step, when the velocity of the whole error is within the limit. -/
theorem step_quiet (h : PartsSetup N th ff parts target sel dt d q) (hc : d.sanity = true → 0 ≤ gain * dt ∧ gain * dt ≤ 1)
    {s : St} {x : List ℝ} (hi : PInv N parts d s x) (hin : ∀ i, 6 ≤ i → i < N → Inside d i (x.getD i 0))
    (hsm : partsSq N parts sel (fun j => gain * (x.getD j 0 - target.getD j 0)) ≤ maxSq) :
    ∃ s' x', step (partsLoop svd N th maxSq ff parts gain sel dt) s = .ok s' ∧ PInv N parts d s' x' ∧ Warm N parts s' ∧
      (∀ i, 6 ≤ i → i < N → Inside d i (x'.getD i 0)) ∧ s'.reports = s.reports ++ [[]] ∧
      (∀ i, i < N → MovedBy parts sel i → x'.getD i 0 - target.getD i 0 = (1 - gain * dt) * (x.getD i 0 - target.getD i 0) ∨
        x'.getD i 0 = x.getD i 0) ∧
      (Warm N parts s → ∀ i, i < N → MovedBy parts sel i →
        x'.getD i 0 - target.getD i 0 = (1 - gain * dt) * (x.getD i 0 - target.getD i 0)) ∧
      (∀ b ∈ s.bufs, ∀ e,
        Task.computeError b.err (parts.map fun p => (picked (wanted p.hist) N).map fun i => x.getD i 0 - p.posture.getD i 0) = .ok e →
        ∀ (i : Nat) (hi : i < (Loop.joints N parts).length), MovedBy parts sel (Loop.joints N parts)[i] →
          x'.getD (Loop.joints N parts)[i] 0 = x.getD (Loop.joints N parts)[i] 0 - gain * dt * e.getD i 0) ∧
      ∀ i, 6 ≤ i → i < N → ¬MovedBy parts sel i → x'.getD i 0 = x.getD i 0 := by
  classical
  obtain ⟨s', x', ε, a1, a2, a3, a4, a5, a8, a6, -⟩ := step_parts svd N th maxSq ff parts target gain sel dt h.joints h.threshold.1
    h.threshold.2 h.split h.base h.mode hi
  obtain ⟨b1, b2⟩ := a6 (le_trans (partsSq_le (fun j _ _ => by
    rcases a4 j with e | e
    · rw [e]; apply le_of_eq; ring
    · rw [e]; simp; positivity)) hsm)
  have hnew : ∀ i, 6 ≤ i → i < N → Inside d i (if MovedBy parts sel i then x.getD i 0 + dt * (-(ε i) * gain) else x.getD i 0) := by
    intro i hi6 hiN
    split_ifs with hmv
    · rcases a4 i with e | e
      · intro hsan
        obtain ⟨c1, c2⟩ := hc hsan
        have e' : x.getD i 0 + dt * (-(ε i) * gain) = target.getD i 0 + (1 - gain * dt) * (x.getD i 0 - target.getD i 0) := by
          rw [e]; ring
        rw [e']
        exact (hin i hi6 hiN).between (h.targetInside i hiN hmv) (by linarith) (by linarith) hsan
      · have e' : x.getD i 0 + dt * (-(ε i) * gain) = x.getD i 0 := by rw [e]; ring
        rw [e']; exact hin i hi6 hiN
    · exact hin i hi6 hiN
  have hx : ∀ i, 6 ≤ i → i < N → x'.getD i 0 = if MovedBy parts sel i then x.getD i 0 + dt * (-(ε i) * gain) else x.getD i 0 :=
    fun i hi6 hiN => (b2 i hi6 hiN).inside (hnew i hi6 hiN)
  refine ⟨s', x', a1, a2, a3, fun i hi6 hiN => by rw [hx i hi6 hiN]; exact hnew i hi6 hiN, b1, fun i hiN hm => ?_, fun hw i hiN hm => ?_,
    fun b hb e he i hil hm => ?_, fun i hi6 hiN hm => by rw [hx i hi6 hiN, if_neg hm]⟩
  · rw [hx i (h.noBase i hm) hiN, if_pos hm]
    rcases a4 i with e | e
    · left; rw [e]; ring
    · right; rw [e]; ring
  · rw [hx i (h.noBase i hm) hiN, if_pos hm, a5 hw i]; ring
  · have hmem := (mem_joints.mp (List.getElem_mem hil)).1
    rw [hx _ (h.noBase _ hm) hmem, if_pos hm, a8 b hb e he i hil]; ring

/-! ### Properties -/

open scoped Classical in
/-- C154. With a gain times the period between zero and two (one with checks) and a velocity for the whole first error within the limit of the
stack: no step stops or is reported; at the first step each joint that is moved is either brought nearer by the factor
`1 - gain * dt` or left where it is; at each of the following steps the distance of all of them is multiplied by this factor. The
other joints (after the base) do not move. -/
theorem C154_approach (h : PartsSetup N th ff parts target sel dt d q) (h0 : 0 ≤ gain * dt) (h2 : gain * dt ≤ 2)
    (hc : d.sanity = true → gain * dt ≤ 1)
    (hsm : (∑ j : Fin N, if MovedBy parts sel j.val then (gain * (q.getD j.val 0 - target.getD j.val 0)) ^ 2 else 0) ≤ maxSq) :
    ∃ traj : Nat → List ℝ, traj 0 = q ∧
      (∀ k, ∃ s, steps (partsLoop svd N th maxSq ff parts gain sel dt) k
          (start (partsLoop svd N th maxSq ff parts gain sel dt) d) = .ok s ∧ s.dev.state = nums (traj k) ∧ (traj k).length = N ∧
        s.reports = List.replicate k []) ∧
      (∀ i, i < N → MovedBy parts sel i →
        ((traj 1).getD i 0 - target.getD i 0 = (1 - gain * dt) * (q.getD i 0 - target.getD i 0) ∨ (traj 1).getD i 0 = q.getD i 0) ∧
        ∀ k, (traj (k + 1)).getD i 0 - target.getD i 0 = (1 - gain * dt) ^ k * ((traj 1).getD i 0 - target.getD i 0)) ∧
      ∀ k i, 6 ≤ i → i < N → ¬MovedBy parts sel i → (traj k).getD i 0 = q.getD i 0 := by
  have hc' : d.sanity = true → 0 ≤ gain * dt ∧ gain * dt ≤ 1 := fun hs => ⟨h0, hc hs⟩
  have habs : (1 - gain * dt) ^ 2 ≤ 1 := by nlinarith
  obtain ⟨s1, q1, a1, a2, a3, a4, a5, a6, -, -, a7⟩ := step_quiet svd maxSq h hc' (h.inv svd maxSq (gain := gain)) h.inside hsm
  have hsq1 : ∀ i, i < N → MovedBy parts sel i → (q1.getD i 0 - target.getD i 0) ^ 2 ≤ (q.getD i 0 - target.getD i 0) ^ 2 := by
    intro i hiN hm
    rcases a6 i hiN hm with e | e
    · rw [e, mul_pow]
      have := mul_le_mul_of_nonneg_right habs (sq_nonneg (q.getD i 0 - target.getD i 0))
      linarith
    · rw [e]
  have hall : ∀ k, ∃ s x, steps (partsLoop svd N th maxSq ff parts gain sel dt) (k + 1)
          (start (partsLoop svd N th maxSq ff parts gain sel dt) d) = .ok s ∧ PInv N parts d s x ∧ Warm N parts s ∧
        (∀ i, 6 ≤ i → i < N → Inside d i (x.getD i 0)) ∧ s.reports = List.replicate (k + 1) [] ∧
        (∀ i, i < N → MovedBy parts sel i → x.getD i 0 - target.getD i 0 = (1 - gain * dt) ^ k * (q1.getD i 0 - target.getD i 0)) ∧
        (∀ i, 6 ≤ i → i < N → ¬MovedBy parts sel i → x.getD i 0 = q.getD i 0) ∧ (k = 0 → x = q1) := by
    intro k
    induction k with
    | zero =>
      refine ⟨s1, q1, ?_, a2, a3, a4, by rw [a5]; rfl, fun i _ _ => by simp, a7, fun _ => rfl⟩
      show (Outcome.ok _).bind _ = _
      exact a1
    | succ k ih =>
      obtain ⟨s, x, b1, b2, b3, b4, b5, b6, b7, -⟩ := ih
      have hle : partsSq N parts sel (fun j => gain * (x.getD j 0 - target.getD j 0)) ≤ maxSq := by
        refine le_trans (partsSq_le (w' := fun j => gain * (q.getD j 0 - target.getD j 0)) (fun j hjN hm => ?_)) hsm
        rw [mul_pow, mul_pow]
        apply mul_le_mul_of_nonneg_left _ (sq_nonneg _)
        refine le_trans ?_ (hsq1 j hjN hm)
        rw [b6 j hjN hm, mul_pow, ← pow_mul, Nat.mul_comm, pow_mul]
        have := mul_le_mul_of_nonneg_right (pow_le_one₀ (sq_nonneg _) habs (n := k)) (sq_nonneg (q1.getD j 0 - target.getD j 0))
        linarith
      obtain ⟨s', x', c1, c2, c3, c4, c5, -, c6, -, c7⟩ := step_quiet svd maxSq h hc' b2 b4 hle
      refine ⟨s', x', ?_, c2, c3, c4, by rw [c5, b5, ← List.replicate_succ'], fun i hiN hm => ?_, fun i hi6 hiN hm => ?_, fun hk => by omega⟩
      · show (steps _ (k + 1) _).bind _ = _
        rw [b1]; exact c1
      · rw [c6 b3 i hiN hm, b6 i hiN hm, pow_succ]; ring
      · rw [c7 i hi6 hiN hm, b7 i hi6 hiN hm]
  choose s x b1 b2 b3 b4 b5 b6 b7 b8 using hall
  refine ⟨fun k => match k with | 0 => q | k + 1 => x k, rfl, ?_, ?_, ?_⟩
  · intro k
    cases k with
    | zero => exact ⟨_, rfl, h.state, h.size, rfl⟩
    | succ k => exact ⟨s k, b1 k, (b2 k).state, (b2 k).size, b5 k⟩
  · intro i hiN hm
    simp only [b8 0 rfl]
    exact ⟨a6 i hiN hm, fun k => b6 k i hiN hm⟩
  · intro k i hi6 hiN hm
    cases k with
    | zero => rfl
    | succ k => exact b7 k i hi6 hiN hm

open scoped Classical in
/-- C154. So with a gain times the period strictly between zero and two the joints that are moved converge to the posture. -/
theorem C154_converges (h : PartsSetup N th ff parts target sel dt d q) (h0 : 0 < gain * dt) (h2 : gain * dt < 2)
    (hc : d.sanity = true → gain * dt ≤ 1)
    (hsm : (∑ j : Fin N, if MovedBy parts sel j.val then (gain * (q.getD j.val 0 - target.getD j.val 0)) ^ 2 else 0) ≤ maxSq) :
    ∃ traj : Nat → List ℝ,
      (∀ k, ∃ s, steps (partsLoop svd N th maxSq ff parts gain sel dt) k
          (start (partsLoop svd N th maxSq ff parts gain sel dt) d) = .ok s ∧ s.dev.state = nums (traj k) ∧
        s.reports = List.replicate k []) ∧
      ∀ i, i < N → MovedBy parts sel i → Tendsto (fun k => (traj k).getD i 0) atTop (𝓝 (target.getD i 0)) := by
  obtain ⟨traj, -, a1, a2, -⟩ := C154_approach svd maxSq h h0.le h2.le hc hsm
  refine ⟨traj, fun k => ?_, fun i hiN hm => ?_⟩
  · obtain ⟨s, b1, b2, -, b3⟩ := a1 k
    exact ⟨s, b1, b2, b3⟩
  · have habs : |1 - gain * dt| < 1 := by rw [abs_lt]; constructor <;> linarith
    have hlim : Tendsto (fun k => target.getD i 0 + (1 - gain * dt) ^ k * ((traj 1).getD i 0 - target.getD i 0)) atTop
        (𝓝 (target.getD i 0 + 0 * ((traj 1).getD i 0 - target.getD i 0))) :=
      ((tendsto_pow_atTop_nhds_zero_of_abs_lt_one habs).mul_const _).const_add _
    rw [zero_mul, add_zero] at hlim
    refine (tendsto_add_atTop_iff_nat 1).mp (hlim.congr fun k => ?_)
    have := (a2 i hiN hm).2 k
    linarith

open scoped Classical in
/-- C154. Which joints the first step moves: those whose error is kept by the first evaluation of the error of the task, in the order of the
features. -/
theorem C154_first (h : PartsSetup N th ff parts target sel dt d q) (hc : d.sanity = true → 0 ≤ gain * dt ∧ gain * dt ≤ 1)
    (hsm : (∑ j : Fin N, if MovedBy parts sel j.val then (gain * (q.getD j.val 0 - target.getD j.val 0)) ^ 2 else 0) ≤ maxSq) :
    ∃ s q' e, steps (partsLoop svd N th maxSq ff parts gain sel dt) 1
        (start (partsLoop svd N th maxSq ff parts gain sel dt) d) = .ok s ∧ s.dev.state = nums q' ∧
      Task.computeError [] (parts.map fun p => (picked (wanted p.hist) N).map fun i => q.getD i 0 - p.posture.getD i 0) = .ok e ∧
      ∀ (i : Nat) (hi : i < (Loop.joints N parts).length), MovedBy parts sel (Loop.joints N parts)[i] →
        q'.getD (Loop.joints N parts)[i] 0 = q.getD (Loop.joints N parts)[i] 0 - gain * dt * e.getD i 0 := by
  obtain ⟨s1, q1, a1, a2, -, -, -, -, -, a7, -⟩ := step_quiet svd maxSq h hc (h.inv svd maxSq (gain := gain)) h.inside hsm
  obtain ⟨e, he, -⟩ := Task.C14_size_and_components_partial ([] : List ℝ)
    (parts.map fun p => (picked (wanted p.hist) N).map fun i => q.getD i 0 - p.posture.getD i 0) (by simpa using h.split.some)
  refine ⟨s1, q1, e, ?_, a2.state, he, a7 .new (by simp [start, partsLoop]) e he⟩
  show (Outcome.ok _).bind _ = _
  exact a1

end

/-! ### A case -/

/-- A robot with eight joints, of which the last two have a feature each. -/
def twoParts : List PartOf := [⟨[(6, true)], [0, 0, 0, 0, 0, 0, 1, 0]⟩, ⟨[(7, true)], [0, 0, 0, 0, 0, 0, 0, 1]⟩]

/-- The last two joints are three radians from zero. -/
noncomputable def partsDev : Dev ℝ :=
  { init with sanity := false, state := nums [0, 0, 0, 0, 0, 0, 3, 3], stateSOUT := nums [0, 0, 0, 0, 0, 0, 3, 3] }

theorem wanted_one (a j : Nat) : wanted [(a, true)] j = true ↔ j = a := by
  constructor
  · intro h
    by_contra hj
    have : (a == j) = false := by simp; omega
    simp [wanted, this] at h
  · rintro rfl; simp [wanted]

theorem two_moved (j : Nat) : MovedBy twoParts (Flags.ofBool true) j ↔ j = 6 ∨ j = 7 := by
  simp only [MovedBy, twoParts, List.mem_cons, List.not_mem_nil, or_false, exists_eq_or_imp, exists_eq_left, wanted_one]
  constructor
  · rintro ⟨h, -⟩; exact h
  · rintro (rfl | rfl)
    · exact ⟨.inl rfl, by decide⟩
    · exact ⟨.inr rfl, by decide⟩

theorem two_setup : PartsSetup 8 (1 / 10000) (fun _ _ _ _ => some 0) twoParts [0, 0, 0, 0, 0, 0, 1, 1] (Flags.ofBool true) (1 / 100)
    partsDev [0, 0, 0, 0, 0, 0, 3, 3] where
  joints := by decide
  threshold := by norm_num
  split := {
    some := by simp [twoParts]
    asked := by simp [twoParts]
    sizes := by simp [twoParts]
    apart := by
      simp only [twoParts, List.pairwise_cons, List.mem_singleton, forall_eq, wanted_one]
      refine ⟨fun j h => by omega, by simp⟩
    agree := by
      simp only [twoParts, List.mem_cons, List.not_mem_nil, or_false, forall_eq_or_imp, forall_eq, wanted_one]
      exact ⟨fun j _ hj => by rw [hj]; rfl, fun j _ hj => by rw [hj]; rfl⟩ }
  size := rfl
  base := fun _ _ _ => by simp
  noBase := fun j hj => by rw [two_moved] at hj; omega
  mode := rfl
  usable := .inl rfl
  state := rfl
  shown := rfl
  inside := fun _ _ _ h => by cases h
  targetInside := fun _ _ _ h => by cases h

/-- The evaluation that loses the first component. -/
theorem two_lost (x y : ℝ) : Task.computeError ([] : List ℝ) [[x], [y]] = .ok [0, y] := by
  have h2 : Task.growDim 2 2 = 2 := by rw [Task.growDim, dif_neg (by omega)]
  have h1 : Task.growDim 2 1 = 2 := by rw [Task.growDim, dif_pos (by omega)]; exact h2
  have hb : Task.growBuf (0 + 1) [(0 : ℝ)] = [0] := by simp [Task.growBuf]
  have hb' : Task.growBuf (1 + 1) [x] = [0, 0] := by
    simp only [Task.growBuf, List.length_cons, List.length_nil]
    rw [if_pos (by omega), h1]; rfl
  simp only [Task.computeError, List.isEmpty_cons, Bool.false_eq_true, if_false, List.length_nil, if_true, Task.errorLoop,
    List.length_cons, Nat.zero_add, hb]
  simp [Task.growBuf, Task.writeVec, Task.errorLoop, h1]

open scoped Classical in
/-- C154. With a gain of ten and a period of ten milliseconds, the first step brings the last joint nearer by a tenth and leaves the one before
where it is; both converge to one radian. -/
theorem C154_case (svd : ∀ {m c : ℕ} (A : Matrix (Fin m) (Fin c) ℝ), Svd A) :
    (∃ s q', steps (partsLoop svd 8 (1 / 10000) 10000 (fun _ _ _ _ => some 0) twoParts 10 (Flags.ofBool true) (1 / 100)) 1
        (start (partsLoop svd 8 (1 / 10000) 10000 (fun _ _ _ _ => some 0) twoParts 10 (Flags.ofBool true) (1 / 100)) partsDev) = .ok s ∧
      s.dev.state = nums q' ∧ q'.getD 6 0 = 3 ∧ q'.getD 7 0 = 14 / 5) ∧
    ∃ traj : Nat → List ℝ,
      (∀ k, ∃ s, steps (partsLoop svd 8 (1 / 10000) 10000 (fun _ _ _ _ => some 0) twoParts 10 (Flags.ofBool true) (1 / 100)) k
        (start (partsLoop svd 8 (1 / 10000) 10000 (fun _ _ _ _ => some 0) twoParts 10 (Flags.ofBool true) (1 / 100)) partsDev) = .ok s ∧
        s.dev.state = nums (traj k) ∧ s.reports = List.replicate k []) ∧
      Tendsto (fun k => (traj k).getD 6 0) atTop (𝓝 1) ∧ Tendsto (fun k => (traj k).getD 7 0) atTop (𝓝 1) := by
  have hsm : (∑ j : Fin 8, if MovedBy twoParts (Flags.ofBool true) j.val then
      ((10 : ℝ) * (([0, 0, 0, 0, 0, 0, 3, 3] : List ℝ).getD j.val 0 - ([0, 0, 0, 0, 0, 0, 1, 1] : List ℝ).getD j.val 0)) ^ 2 else 0) ≤ 10000 := by
    calc _ ≤ ∑ j : Fin 8, ((10 : ℝ) * (([0, 0, 0, 0, 0, 0, 3, 3] : List ℝ).getD j.val 0 - ([0, 0, 0, 0, 0, 0, 1, 1] : List ℝ).getD j.val 0)) ^ 2 := by
          apply Finset.sum_le_sum
          intro j _
          split_ifs
          · exact le_refl _
          · exact sq_nonneg _
      _ ≤ 10000 := by simp [Fin.sum_univ_succ]; norm_num
  constructor
  · obtain ⟨s, q', e, a1, a2, a3, a4⟩ := C154_first svd 10000 (gain := 10) two_setup (fun h => by cases h) hsm
    have hp6 : picked (wanted [(6, true)]) 8 = [6] := by decide
    have hp7 : picked (wanted [(7, true)]) 8 = [7] := by decide
    have hj : Loop.joints 8 twoParts = [6, 7] := by simp [Loop.joints, twoParts, hp6, hp7]
    simp only [twoParts, List.map_cons, List.map_nil, hp6, hp7] at a3
    rw [two_lost] at a3
    obtain rfl := Outcome.ok.inj a3
    refine ⟨s, q', a1, a2, ?_, ?_⟩
    · have := a4 0 (by rw [hj]; decide) (by simp only [hj]; exact (two_moved 6).mpr (.inl rfl))
      simp only [hj, List.getElem_cons_zero] at this
      rw [this]; norm_num
    · have := a4 1 (by rw [hj]; decide) (by simp only [hj]; exact (two_moved 7).mpr (.inr rfl))
      simp only [hj, List.getElem_cons_succ, List.getElem_cons_zero] at this
      rw [this]; norm_num
  · obtain ⟨traj, a1, a2⟩ := C154_converges svd 10000 (gain := 10) two_setup (by norm_num) (by norm_num) (fun h => by cases h) hsm
    exact ⟨traj, a1, a2 6 (by decide) ((two_moved 6).mpr (.inl rfl)), a2 7 (by decide) ((two_moved 7).mpr (.inr rfl))⟩

end Verif.Loop
