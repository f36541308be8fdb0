import Verif.Sot.ControlRun2

namespace Verif.Sot

open Matrix Verif.MultiBound

variable {n : ℕ} (svd : ∀ {m c : ℕ} (A : Matrix (Fin m) (Fin c) ℝ), Svd A)

/-! ### Orthogonality of the control to the remaining directions -/

theorem increment_perp {m c : ℕ} {A : Matrix (Fin m) (Fin c) ℝ} (S : Svd A) (r : ℕ)
    (e : Fin m → ℝ) (w : Fin (c - r) → ℝ) : increment S r e ⬝ᵥ (rightCols S r *ᵥ w) = 0 := by
  show (thinV S *ᵥ tmpTask S r e) ⬝ᵥ (rightCols S r *ᵥ w) = 0
  rw [dotProduct_comm, Matrix.dotProduct_mulVec, ← Matrix.mulVec_transpose]
  unfold dotProduct
  apply Finset.sum_eq_zero
  intro k _
  have h1 : ((thinV S)ᵀ *ᵥ (rightCols S r *ᵥ w)) k = (S.Vᵀ *ᵥ (rightCols S r *ᵥ w)) (svdCol k) :=
    rfl
  rw [h1, transpose_rightCols_apply]
  unfold tmpTask
  by_cases hk : k.val < r
  · have : ¬ (r ≤ (svdCol k : Fin c).val) := by
      show ¬ (r ≤ k.val); omega
    rw [dif_neg this]; simp
  · rw [if_neg hk, mul_zero]

theorem level_perp {th maxSq : ℝ} {accel last : Bool} {st st' : St n} {lv : Level n} (hth : 0 ≤ th)
    (h : levelStep svd th maxSq accel last st lv = .ok st')
    (hgen : ¬ (last = true ∧ accel = true ∧ lv.fullPosture = true))
    (ho : Orth st.kernel) (hp : ∀ d, InRange st.kernel d → st.control ⬝ᵥ d = 0)
    (d : Fin n → ℝ) (hd : InRange st.kernel d)
    (hJ : st'.disabled = st.disabled → effJac lv *ᵥ d = 0) : st'.control ⬝ᵥ d = 0 := by
  obtain ⟨f1, f2, f3, f4, -⟩ := levelStep_frame svd h
  rcases f4 with hacc | ⟨-, hc, -⟩
  · obtain ⟨_, -, hc, -⟩ := levelStep_accepted svd h hgen hacc
    have hJd := hJ hacc
    have hd' := hd
    obtain ⟨y, rfl⟩ := hd'
    rw [Matrix.mulVec_mulVec] at hJd
    obtain ⟨w, hw⟩ := exists_rightCols (svd (effJac lv * (basis st.kernel).K))
      (rankJ th (svd (effJac lv * (basis st.kernel).K)).σ)
      (by
        intro k hk
        have := (lt_rankJ_iff th _ (svd (effJac lv * (basis st.kernel).K)).antitone k).mp hk
        exact ne_of_gt (lt_of_le_of_lt hth this)) (rankJ_le _ _) y hJd
    rw [hc, add_dotProduct, hp _ hd, orth_dot ho, zero_add]
    rw [hw]
    exact increment_perp _ _ _ _
  · rw [hc]; exact hp d hd

theorem level_perp_kernel {th maxSq : ℝ} {accel : Bool} {st st' : St n} {lv : Level n}
    (h : levelStep svd th maxSq accel false st lv = .ok st')
    (ho : Orth st.kernel) (hp : ∀ d, InRange st.kernel d → st.control ⬝ᵥ d = 0)
    (d : Fin n → ℝ) (hd : InRange st'.kernel d) : st'.control ⬝ᵥ d = 0 := by
  obtain ⟨f1, f2, f3, f4, -⟩ := levelStep_frame svd h
  rcases f4 with hacc | ⟨-, hc, -⟩
  · obtain ⟨_, -, hc, hk⟩ := levelStep_accepted svd h (by simp) hacc
    have hd0 := f2 d hd
    rw [hk rfl] at hd
    obtain ⟨w, rfl⟩ := inRange_some.mp hd
    rw [hc, add_dotProduct, hp _ hd0, zero_add, ← Matrix.mulVec_mulVec, orth_dot ho]
    exact increment_perp _ _ _ _
  · rw [hc]; exact hp d (f2 d hd)

theorem loop_perp {th maxSq : ℝ} {accel : Bool} (hth : 0 ≤ th) {lvs : List (Level n)}
    {st stf : St n} (h : loop svd th maxSq accel lvs st = .ok stf)
    (hgen : accel = true → ∀ lv ∈ lvs, lv.fullPosture = false)
    (ho : Orth st.kernel) (hp : ∀ d, InRange st.kernel d → st.control ⬝ᵥ d = 0)
    (hlt : ∀ i ∈ st.disabled, i < st.iterTask)
    (d : Fin n → ℝ) (hd : InRange st.kernel d)
    (hJ : ∀ j (hj : j < lvs.length), st.iterTask + j ∉ stf.disabled → effJac lvs[j] *ᵥ d = 0) :
    stf.control ⬝ᵥ d = 0 := by
  induction lvs generalizing st with
  | nil =>
    simp only [loop, Outcome.ok.injEq] at h
    subst h
    exact hp d hd
  | cons lv rest ih =>
    obtain ⟨st', h1, h2⟩ := (loop_cons svd).mp h
    obtain ⟨f1, f2, f3, f4, -⟩ := levelStep_frame svd h1
    obtain ⟨t1, l, t2, t3⟩ := tail_frame svd h2
    have hg : ¬ (rest.isEmpty = true ∧ accel = true ∧ lv.fullPosture = true) := by
      rintro ⟨-, ha, hf⟩
      have := hgen ha lv (by simp)
      rw [hf] at this; simp at this
    have hJ0 : st'.disabled = st.disabled → effJac lv *ᵥ d = 0 := by
      intro hacc
      apply hJ 0 (by simp)
      rw [t2, hacc]
      simp only [List.mem_append, not_or]
      constructor
      · intro hi; have := hlt _ hi; omega
      · intro hi; have := t3 _ hi; omega
    rcases h2 with ⟨-, rfl⟩ | ⟨hne, -, h3⟩
    · exact level_perp svd hth h1 hg ho hp d hd hJ0
    · have hl : rest.isEmpty = false := by simpa using hne
      rw [hl] at h1
      apply ih h3 (fun ha lv hlv => hgen ha lv (by simp [hlv])) (levelStep_orth svd h1 ho)
      · intro d' hd'
        exact level_perp_kernel svd h1 ho hp d' hd'
      · intro i hi
        rcases f4 with h | ⟨h, -⟩
        · rw [h] at hi; have := hlt i hi; omega
        · rw [h] at hi
          rcases List.mem_append.mp hi with hi | hi
          · have := hlt i hi; omega
          · simp at hi; omega
      · rcases f4 with h | ⟨-, -, h, -⟩
        · exact kernel_complete svd hth h1 h d hd (hJ0 h)
        · rw [h]; exact hd
      · intro j hj hn
        have := hJ (j + 1) (by simpa using hj) (by
          rw [f3] at hn; rwa [show st.iterTask + (j + 1) = st.iterTask + 1 + j by omega])
        simpa using this

/-! ### Levels do not look at the level counter -/

/-- Same control, flag and kernel. -/
def Same (a b : St n) : Prop :=
  a.control = b.control ∧ a.controlIsZero = b.controlIsZero ∧ a.kernel = b.kernel

theorem same_ext {a b : St n} (h : Same a b) :
    b = { a with iterTask := b.iterTask, disabled := b.disabled } := by
  obtain ⟨h1, h2, h3⟩ := h
  cases a; cases b
  simp_all

theorem updateLevel_same {th maxSq : ℝ} {last : Bool} (st : St n) (i : ℕ) (l : List ℕ) {m c : ℕ}
    (K : Matrix (Fin n) (Fin c) ℝ) (Jt : Matrix (Fin m) (Fin c) ℝ) (e : Fin m → ℝ) :
    Same (updateLevel svd th maxSq last st K Jt e)
      (updateLevel svd th maxSq last { st with iterTask := i, disabled := l } K Jt e) := by
  unfold updateLevel
  simp only
  split <;> exact ⟨rfl, rfl, rfl⟩

theorem levelStep_same {th maxSq : ℝ} {accel last : Bool} {st st' : St n} {lv : Level n}
    (h : levelStep svd th maxSq accel last st lv = .ok st') (st2 : St n) (hs : Same st st2) :
    ∃ st2', levelStep svd th maxSq accel last st2 lv = .ok st2' ∧ Same st' st2' := by
  rw [same_ext hs]
  generalize st2.iterTask = i
  generalize st2.disabled = l
  unfold levelStep at h ⊢
  obtain ⟨err, he, h2⟩ := Outcome.bind_eq_ok.mp h
  rw [he]
  simp only [Outcome.bind]
  split
  · rename_i hc
    rw [if_pos hc] at h2
    unfold postureLevel at h2 ⊢
    cases hk : st.kernel with
    | none => simp [hk] at h2
    | some k =>
      obtain ⟨c, K⟩ := k
      simp only [hk] at h2 ⊢
      split at h2
      · rename_i hm
        rw [dif_pos hm]
        split at h2
        · simp at h2
        · rename_i hb
          rw [if_neg hb]
          simp only [Outcome.ok.injEq] at h2
          subst h2
          exact ⟨_, rfl, rfl, rfl, rfl⟩
      · simp at h2
  · rename_i hc
    rw [if_neg hc] at h2
    unfold generalLevel at h2 ⊢
    cases hk : st.kernel with
    | none =>
      simp only [hk] at h2 ⊢
      split at h2
      · simp at h2
      · rename_i hs
        rw [if_neg hs]
        simp only [Outcome.ok.injEq] at h2
        subst h2
        refine ⟨_, rfl, ?_⟩
        have := updateLevel_same svd (th := th) (maxSq := maxSq) (last := last) st i l
          (1 : Matrix (Fin n) (Fin n) ℝ) (activated lv) (correctedErr st (activated lv) err)
        rw [hk] at this
        exact this
    | some k =>
      obtain ⟨c, K⟩ := k
      simp only [hk] at h2 ⊢
      split at h2
      · simp at h2
      · rename_i hs
        rw [if_neg hs]
        simp only [Outcome.ok.injEq] at h2
        subst h2
        refine ⟨_, rfl, ?_⟩
        have := updateLevel_same svd (th := th) (maxSq := maxSq) (last := last) st i l
          K (activated lv * K) (correctedErr st (activated lv) err)
        rw [hk] at this
        exact this

theorem loop_same {th maxSq : ℝ} {accel : Bool} {lvs : List (Level n)} {st stf : St n}
    (h : loop svd th maxSq accel lvs st = .ok stf) (st2 : St n) (hs : Same st st2) :
    ∃ stf2, loop svd th maxSq accel lvs st2 = .ok stf2 ∧ Same stf stf2 := by
  induction lvs generalizing st st2 with
  | nil =>
    simp only [loop, Outcome.ok.injEq] at h
    subst h
    exact ⟨st2, rfl, hs⟩
  | cons lv rest ih =>
    obtain ⟨st', h1, h2⟩ := (loop_cons svd).mp h
    obtain ⟨st2', h3, h4⟩ := levelStep_same svd h1 st2 hs
    have hk : cols st2'.kernel = cols st'.kernel := by rw [h4.2.2]
    rcases h2 with ⟨h5, rfl⟩ | ⟨h5, h6, h7⟩
    · refine ⟨st2', (loop_cons svd).mpr ⟨st2', h3, Or.inl ⟨?_, rfl⟩⟩, h4⟩
      rw [hk]; exact h5
    · obtain ⟨stf2, h8, h9⟩ := ih h7 st2' h4
      refine ⟨stf2, (loop_cons svd).mpr ⟨st2', h3, Or.inr ⟨h5, ?_, h8⟩⟩, h9⟩
      rw [hk]; exact h6

theorem loop_reach {th maxSq : ℝ} {accel : Bool} {pre post : List (Level n)} {st stp stf : St n}
    (hr : Reach svd th maxSq accel pre st stp) (hpost : post ≠ [])
    (h : loop svd th maxSq accel post stp = .ok stf) :
    loop svd th maxSq accel (pre ++ post) st = .ok stf := by
  induction hr with
  | nil st => exact h
  | cons p ps st st' stp h1 hc hr ih =>
    have hne : ps ++ post ≠ [] := by simp [hpost]
    show loop svd th maxSq accel (p :: (ps ++ post)) st = .ok stf
    refine (loop_cons svd).mpr ⟨st', ?_, Or.inr ⟨hne, hc, ih h⟩⟩
    have : (ps ++ post).isEmpty = false := by simp [hpost]
    rw [this]; exact h1

/-! ### Large limits, absence of undefined behaviour -/

/-- The memory of the task, if any, is large enough. -/
def MemOk (lv : Level n) : Prop := ∀ s, lv.mem = some s → lv.m ≤ s.1 ∧ n ≤ s.2

def AllSingle (lv : Level n) : Prop := ∀ i, (lv.task i).mode = .single

theorem taskVector_single {lv : Level n} (h : AllSingle lv) :
    taskVector lv = .ok (fun i => (lv.task i).boundSingle) := by
  unfold taskVector
  unfold AllSingle at h
  rw [if_pos h]

theorem taskVector_not_single {lv : Level n} (h : ¬ AllSingle lv) : taskVector lv = .throw := by
  unfold taskVector
  unfold AllSingle at h
  rw [if_neg h]

theorem cols_le_of_step {th maxSq : ℝ} {accel last : Bool} {st st' : St n} {lv : Level n}
    (h : levelStep svd th maxSq accel last st lv = .ok st') (hc : (basis st.kernel).c ≤ n) :
    (basis st'.kernel).c ≤ n := by
  obtain ⟨err, -, ⟨-, -, -, hp⟩ | ⟨-, hg⟩⟩ := levelStep_cases svd h
  · unfold postureLevel at hp
    cases hk : st.kernel with
    | none => simp [hk] at hp
    | some k =>
      obtain ⟨c, K⟩ := k
      simp only [hk] at hp
      split at hp
      · split at hp
        · simp at hp
        · simp only [Outcome.ok.injEq] at hp
          subst hp
          simpa [hk] using hc
      · simp at hp
  · rw [generalLevel_eq svd hg]
    obtain ⟨hi, ⟨-, -, hk, -, -⟩ | ⟨-, -, hk, -, -⟩⟩ := updateLevel_cases svd (th := th)
      (maxSq := maxSq) (last := last) (st := st) (K := (basis st.kernel).K)
      (Jt := effJac lv * (basis st.kernel).K) (e := correctedErr st (effJac lv) err)
    · rw [hk]; exact hc
    · rw [hk]
      split
      · exact hc
      · show (basis st.kernel).c - _ ≤ n
        omega

theorem generalLevel_ok {th maxSq : ℝ} {last : Bool} {st : St n} {lv : Level n}
    {err : Fin lv.m → ℝ} (hm : MemOk lv) (hc : (basis st.kernel).c ≤ n) :
    generalLevel svd th maxSq last st lv err =
      .ok (updateLevel svd th maxSq last st (basis st.kernel).K
        (effJac lv * (basis st.kernel).K) (correctedErr st (effJac lv) err)) := by
  have hsz : lv.m ≤ (lv.mem.getD (lv.m, n)).1 ∧ n ≤ (lv.mem.getD (lv.m, n)).2 := by
    cases hmem : lv.mem with
    | none => simp
    | some s => simpa using hm s hmem
  have : ∃ st', generalLevel svd th maxSq last st lv err = .ok st' := by
    unfold generalLevel
    cases hk : st.kernel with
    | none =>
      simp only
      rw [if_neg]
      · exact ⟨_, rfl⟩
      · have h1 := rankJ_le th (svd (activated lv)).σ
        have h2 := Nat.min_le_left lv.m n
        omega
    | some k =>
      obtain ⟨c, K⟩ := k
      rw [hk] at hc
      have hc' : c ≤ n := hc
      simp only
      rw [if_neg]
      · exact ⟨_, rfl⟩
      · have h1 := rankJ_le th (svd (activated lv * K)).σ
        have h2 := Nat.min_le_left lv.m c
        omega
  obtain ⟨st', h⟩ := this
  rw [h, generalLevel_eq svd h]

theorem levelStep_no_ub {th maxSq : ℝ} {accel last : Bool} {st : St n} {lv : Level n}
    (hm : MemOk lv) (hc : (basis st.kernel).c ≤ n) (hp : accel = true → lv.fullPosture = false) :
    (AllSingle lv → ∃ st', levelStep svd th maxSq accel last st lv = .ok st') ∧
    (¬ AllSingle lv → levelStep svd th maxSq accel last st lv = .throw) := by
  have hf : (last && accel && lv.fullPosture) = false := by
    cases ha : accel
    · simp
    · simp [hp ha]
  unfold levelStep
  constructor
  · intro hs
    rw [taskVector_single hs]
    simp only [Outcome.bind, hf, Bool.false_eq_true, if_false]
    rw [generalLevel_ok svd hm hc]
    exact ⟨_, rfl⟩
  · intro hs
    rw [taskVector_not_single hs]
    rfl

theorem loop_no_ub {th maxSq : ℝ} {accel : Bool} {lvs : List (Level n)} {st : St n}
    (hm : ∀ lv ∈ lvs, MemOk lv) (hc : (basis st.kernel).c ≤ n)
    (hp : accel = true → ∀ lv ∈ lvs, lv.fullPosture = false) :
    loop svd th maxSq accel lvs st ≠ .ub ∧
    ((∀ lv ∈ lvs, AllSingle lv) → ∃ stf, loop svd th maxSq accel lvs st = .ok stf) := by
  induction lvs generalizing st with
  | nil => simp [loop]
  | cons lv rest ih =>
    obtain ⟨h1, h2⟩ := levelStep_no_ub svd (th := th) (maxSq := maxSq) (accel := accel)
      (last := rest.isEmpty) (st := st) (hm lv (by simp)) hc (fun ha => hp ha lv (by simp))
    by_cases hs : AllSingle lv
    · obtain ⟨st', h3⟩ := h1 hs
      have hc' := cols_le_of_step svd h3 hc
      obtain ⟨i1, i2⟩ := ih (st := st') (fun l hl => hm l (by simp [hl])) hc'
        (fun ha l hl => hp ha l (by simp [hl]))
      rw [loop, h3]
      simp only [Outcome.bind]
      split
      · simp
      · exact ⟨i1, fun hall => i2 (fun l hl => hall l (by simp [hl]))⟩
    · rw [loop, h2 hs]
      refine ⟨by simp, fun hall => absurd (hall lv (by simp)) hs⟩

/-- Above some limit, no level is rejected. -/
theorem loop_large {th : ℝ} {accel : Bool} {lvs : List (Level n)} {st : St n}
    (hm : ∀ lv ∈ lvs, MemOk lv) (hc : (basis st.kernel).c ≤ n)
    (hp : accel = true → ∀ lv ∈ lvs, lv.fullPosture = false) (hs : ∀ lv ∈ lvs, AllSingle lv) :
    ∃ M, ∃ stf, ∀ maxSq, M ≤ maxSq →
      loop svd th maxSq accel lvs st = .ok stf ∧ stf.disabled = st.disabled := by
  induction lvs generalizing st with
  | nil => exact ⟨0, st, fun _ _ => ⟨rfl, rfl⟩⟩
  | cons lv rest ih =>
    have hf : (rest.isEmpty && accel && lv.fullPosture) = false := by
      cases ha : accel
      · simp
      · simp [hp ha lv (by simp)]
    -- the update at an accepting limit does not depend on the limit
    have hstep : ∃ M0, ∃ st', ∀ maxSq, M0 ≤ maxSq →
        levelStep svd th maxSq accel rest.isEmpty st lv = .ok st' ∧ st'.disabled = st.disabled := by
      have hl : ∀ maxSq, levelStep svd th maxSq accel rest.isEmpty st lv =
          .ok (updateLevel svd th maxSq rest.isEmpty st (basis st.kernel).K
            (effJac lv * (basis st.kernel).K)
            (correctedErr st (effJac lv) (fun i => (lv.task i).boundSingle))) := by
        intro maxSq
        unfold levelStep
        rw [taskVector_single (hs lv (by simp))]
        simp only [Outcome.bind, hf, Bool.false_eq_true, if_false]
        rw [generalLevel_ok svd (hm lv (by simp)) hc]
      refine ⟨((basis st.kernel).K *ᵥ increment (svd (effJac lv * (basis st.kernel).K))
          (rankJ th (svd (effJac lv * (basis st.kernel).K)).σ)
          (correctedErr st (effJac lv) (fun i => (lv.task i).boundSingle))) ⬝ᵥ
          ((basis st.kernel).K *ᵥ increment (svd (effJac lv * (basis st.kernel).K))
          (rankJ th (svd (effJac lv * (basis st.kernel).K)).σ)
          (correctedErr st (effJac lv) (fun i => (lv.task i).boundSingle))), ?_⟩
      refine ⟨{ st with
          control := st.control + (basis st.kernel).K *ᵥ
            increment (svd (effJac lv * (basis st.kernel).K))
              (rankJ th (svd (effJac lv * (basis st.kernel).K)).σ)
              (correctedErr st (effJac lv) (fun i => (lv.task i).boundSingle))
          controlIsZero := false
          kernel := if rest.isEmpty then st.kernel else some ⟨_, (basis st.kernel).K *
            rightCols (svd (effJac lv * (basis st.kernel).K))
              (rankJ th (svd (effJac lv * (basis st.kernel).K)).σ)⟩
          iterTask := st.iterTask + 1 }, fun maxSq hM => ⟨?_, ?_⟩⟩
      · rw [hl]
        unfold updateLevel
        simp only
        rw [if_neg (not_lt.mpr hM)]
      · rfl
    obtain ⟨M0, st', h0⟩ := hstep
    have hc' := cols_le_of_step svd (h0 M0 le_rfl).1 hc
    obtain ⟨M1, stf, h1⟩ := ih (st := st') (fun l hl => hm l (by simp [hl])) hc'
      (fun ha l hl => hp ha l (by simp [hl])) (fun l hl => hs l (by simp [hl]))
    by_cases hb : rest = [] ∨ cols st'.kernel = 0
    · refine ⟨M0, st', fun maxSq hM => ⟨?_, (h0 maxSq hM).2⟩⟩
      exact (loop_cons svd).mpr ⟨st', (h0 maxSq hM).1, Or.inl ⟨hb, rfl⟩⟩
    · push Not at hb
      refine ⟨max M0 M1, stf, fun maxSq hM => ⟨?_, ?_⟩⟩
      · exact (loop_cons svd).mpr ⟨st', (h0 maxSq (le_trans (le_max_left _ _) hM)).1,
          Or.inr ⟨hb.1, hb.2, (h1 maxSq (le_trans (le_max_right _ _) hM)).1⟩⟩
      · rw [(h1 maxSq (le_trans (le_max_right _ _) hM)).2, (h0 M0 le_rfl).2]

end Verif.Sot
