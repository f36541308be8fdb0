import Verif.Sot.ControlLemmas
import Verif.Sot.ControlSpec
import Verif.Flags.Props
import Mathlib.Tactic.Abel

namespace Verif.Sot

open Matrix Verif.MultiBound

variable {n : ℕ}

theorem activated_eq_effJac (lv : Level n) : activated lv = effJac lv := by
  unfold activated effJac
  cases hs : lv.selec with
  | none => rfl
  | some f =>
    simp only
    have hsel : ∀ j : Fin n, selected f j = true ↔ Flags.call f ((j : ℕ) : Int) = .ok true := by
      intro j
      unfold selected
      rw [Flags.call_natCast]; simp
    ext i j
    by_cases h1 : Flags.toBool f = true
    · rw [if_pos h1]
      by_cases h2 : Flags.toBool (Flags.not f) = true
      · rw [if_pos h2]
        simp only [Matrix.of_apply]
        by_cases h3 : selected f j = true
        · rw [if_pos h3, if_pos ((hsel j).mp h3)]
        · rw [if_neg h3, if_neg (fun h => h3 ((hsel j).mpr h))]
      · rw [if_neg h2]
        have h4 := (Flags.C02_bool_false_iff_nothing (Flags.not f)).mp (by simpa using h2)
        have h5 := h4 (j : ℕ) (by omega)
        obtain ⟨x, hx, hn⟩ := Flags.C01_not_pointwise f (j : ℕ) (by omega)
        rw [hn] at h5
        have : x = true := by simpa using h5
        subst this
        simp [hx]
    · rw [if_neg h1]
      have h4 := (Flags.C02_bool_false_iff_nothing f).mp (by simpa using h1)
      have h5 := h4 (j : ℕ) (by omega)
      simp [h5]

/-- `d` is a combination of the columns of the kernel. -/
def InRange (k : Option (Kernel n)) (d : Fin n → ℝ) : Prop := ∃ w, d = (basis k).K *ᵥ w

theorem inRange_some {c : ℕ} {K : Matrix (Fin n) (Fin c) ℝ} {d : Fin n → ℝ} :
    InRange (some ⟨c, K⟩) d ↔ ∃ w : Fin c → ℝ, d = K *ᵥ w := Iff.rfl

theorem InRange.zero (k : Option (Kernel n)) : InRange k (0 : Fin n → ℝ) :=
  ⟨0, by rw [Matrix.mulVec_zero]⟩

theorem InRange.add {k : Option (Kernel n)} {a b : Fin n → ℝ} (ha : InRange k a)
    (hb : InRange k b) : InRange k (a + b) := by
  obtain ⟨w, rfl⟩ := ha
  obtain ⟨v, rfl⟩ := hb
  exact ⟨w + v, by rw [Matrix.mulVec_add]⟩

theorem InRange.sub {k : Option (Kernel n)} {a b : Fin n → ℝ} (ha : InRange k a)
    (hb : InRange k b) : InRange k (a - b) := by
  obtain ⟨w, rfl⟩ := ha
  obtain ⟨v, rfl⟩ := hb
  exact ⟨w - v, by rw [Matrix.mulVec_sub]⟩

theorem InRange.none (d : Fin n → ℝ) : InRange (none : Option (Kernel n)) d :=
  ⟨d, (Matrix.one_mulVec d).symm⟩

theorem InRange.cols_zero {k : Option (Kernel n)} (hk : k ≠ Option.none) (hc : cols k = 0)
    {d : Fin n → ℝ} (h : InRange k d) : d = 0 := by
  obtain ⟨⟨c, K⟩, rfl⟩ := Option.ne_none_iff_exists'.mp hk
  obtain ⟨w, rfl⟩ := inRange_some.mp h
  have hc0 : c = 0 := hc
  subst hc0
  ext i
  simp [Matrix.mulVec, dotProduct]

variable (svd : ∀ {m c : ℕ} (A : Matrix (Fin m) (Fin c) ℝ), Svd A)

theorem generalLevel_eq {th maxSq : ℝ} {last : Bool} {st st' : St n} {lv : Level n}
    {err : Fin lv.m → ℝ} (h : generalLevel svd th maxSq last st lv err = .ok st') :
    st' = updateLevel svd th maxSq last st (basis st.kernel).K
      (effJac lv * (basis st.kernel).K) (correctedErr st (effJac lv) err) := by
  unfold generalLevel at h
  rw [activated_eq_effJac] at h
  cases hk : st.kernel with
  | none =>
    simp only [hk] at h
    split at h
    · simp at h
    · simp only [Outcome.ok.injEq] at h
      rw [← h]
      show _ = updateLevel svd th maxSq last st (1 : Matrix (Fin n) (Fin n) ℝ)
        (effJac lv * (1 : Matrix (Fin n) (Fin n) ℝ)) _
      rw [Matrix.mul_one]
  | some k =>
    obtain ⟨c, K⟩ := k
    simp only [hk] at h
    split at h
    · simp at h
    · simp only [Outcome.ok.injEq] at h
      rw [← h]
      rfl

/-- What one accepted or rejected level does, in the form used by the inductions. -/
theorem levelStep_cases {th maxSq : ℝ} {accel last : Bool} {st st' : St n} {lv : Level n}
    (h : levelStep svd th maxSq accel last st lv = .ok st') :
    ∃ err : Fin lv.m → ℝ, Requests lv err ∧
      ((last = true ∧ accel = true ∧ lv.fullPosture = true ∧ postureLevel st lv err = .ok st') ∨
       (¬ (last = true ∧ accel = true ∧ lv.fullPosture = true) ∧
        generalLevel svd th maxSq last st lv err = .ok st')) := by
  unfold levelStep at h
  obtain ⟨err, he, h2⟩ := Outcome.bind_eq_ok.mp h
  refine ⟨err, ?_, ?_⟩
  · unfold taskVector at he
    split at he
    · rename_i hs
      simp only [Outcome.ok.injEq] at he
      intro i
      exact ⟨hs i, by rw [← he]⟩
    · simp at he
  · by_cases hc : last = true ∧ accel = true ∧ lv.fullPosture = true
    · left
      refine ⟨hc.1, hc.2.1, hc.2.2, ?_⟩
      simpa [hc.1, hc.2.1, hc.2.2] using h2
    · right
      refine ⟨hc, ?_⟩
      have : (last && accel && lv.fullPosture) = false := by
        by_contra hne
        apply hc
        simp only [Bool.not_eq_false, Bool.and_eq_true] at hne
        exact ⟨hne.1.1, hne.1.2, hne.2⟩
      simpa [this] using h2

/-- Outcome of the update: rejected, or accepted with an increment in the kernel. -/
theorem updateLevel_cases {th maxSq : ℝ} {last : Bool} {st : St n} {m c : ℕ}
    {K : Matrix (Fin n) (Fin c) ℝ} {Jt : Matrix (Fin m) (Fin c) ℝ} {e : Fin m → ℝ} :
    (updateLevel svd th maxSq last st K Jt e).iterTask = st.iterTask + 1 ∧
    (((updateLevel svd th maxSq last st K Jt e).control = st.control ∧
      (updateLevel svd th maxSq last st K Jt e).controlIsZero = st.controlIsZero ∧
      (updateLevel svd th maxSq last st K Jt e).kernel = st.kernel ∧
      (updateLevel svd th maxSq last st K Jt e).disabled = st.disabled ++ [st.iterTask] ∧
      maxSq < (K *ᵥ increment (svd Jt) (rankJ th (svd Jt).σ) e) ⬝ᵥ
        (K *ᵥ increment (svd Jt) (rankJ th (svd Jt).σ) e)) ∨
     ((updateLevel svd th maxSq last st K Jt e).control =
        st.control + K *ᵥ increment (svd Jt) (rankJ th (svd Jt).σ) e ∧
      (updateLevel svd th maxSq last st K Jt e).controlIsZero = false ∧
      (updateLevel svd th maxSq last st K Jt e).kernel =
        (if last then st.kernel else
          some ⟨c - rankJ th (svd Jt).σ, K * rightCols (svd Jt) (rankJ th (svd Jt).σ)⟩) ∧
      (updateLevel svd th maxSq last st K Jt e).disabled = st.disabled ∧
      (K *ᵥ increment (svd Jt) (rankJ th (svd Jt).σ) e) ⬝ᵥ
        (K *ᵥ increment (svd Jt) (rankJ th (svd Jt).σ) e) ≤ maxSq)) := by
  unfold updateLevel
  simp only
  split
  · rename_i hd
    exact ⟨rfl, Or.inl ⟨rfl, rfl, rfl, rfl, hd⟩⟩
  · rename_i hd
    exact ⟨rfl, Or.inr ⟨rfl, rfl, rfl, rfl, not_lt.mp hd⟩⟩

/-- Facts about any executed level. -/
theorem levelStep_frame {th maxSq : ℝ} {accel last : Bool} {st st' : St n} {lv : Level n}
    (h : levelStep svd th maxSq accel last st lv = .ok st') :
    InRange st.kernel (st'.control - st.control) ∧
    (∀ d, InRange st'.kernel d → InRange st.kernel d) ∧
    st'.iterTask = st.iterTask + 1 ∧
    (st'.disabled = st.disabled ∨
      (st'.disabled = st.disabled ++ [st.iterTask] ∧ st'.control = st.control ∧
        st'.kernel = st.kernel ∧ st'.controlIsZero = st.controlIsZero)) ∧
    ((st.controlIsZero = true → st.control = 0) → (st'.controlIsZero = true → st'.control = 0)) := by
  obtain ⟨err, -, ⟨-, -, -, hp⟩ | ⟨-, hg⟩⟩ := levelStep_cases svd h
  · unfold postureLevel at hp
    cases hk : st.kernel with
    | none => simp [hk] at hp
    | some k =>
      obtain ⟨c, K⟩ := k
      simp only [hk] at hp
      split at hp
      · split at hp
        · simp at hp
        · simp only [Outcome.ok.injEq] at hp
          subst hp
          refine ⟨?_, ?_, rfl, Or.inl rfl, by simp⟩
          · simp only [add_sub_cancel_left]
            exact ⟨_, rfl⟩
          · intro d hd; simpa [hk] using hd
      · simp at hp
  · rw [generalLevel_eq svd hg]
    obtain ⟨hi, ⟨hc, hz, hk, hd, -⟩ | ⟨hc, hz, hk, hd, -⟩⟩ := updateLevel_cases svd (th := th)
      (maxSq := maxSq) (last := last) (st := st) (K := (basis st.kernel).K)
      (Jt := effJac lv * (basis st.kernel).K) (e := correctedErr st (effJac lv) err)
    · refine ⟨?_, ?_, hi, Or.inr ⟨hd, hc, hk, hz⟩, ?_⟩
      · rw [hc, sub_self]; exact InRange.zero _
      · rw [hk]; exact fun d hd => hd
      · rw [hc, hz]; exact id
    · refine ⟨?_, ?_, hi, Or.inl hd, ?_⟩
      · rw [hc, add_sub_cancel_left]; exact ⟨_, rfl⟩
      · rw [hk]
        intro d hd
        split at hd
        · exact hd
        · obtain ⟨w, rfl⟩ := inRange_some.mp hd
          refine ⟨rightCols (svd (effJac lv * (basis st.kernel).K)) _ *ᵥ w, ?_⟩
          rw [Matrix.mulVec_mulVec]
      · rw [hz]; simp

/-- Facts about an accepted level solved by the general branch. `x` is its increment in kernel
coordinates. -/
theorem levelStep_accepted {th maxSq : ℝ} {accel last : Bool} {st st' : St n} {lv : Level n}
    (h : levelStep svd th maxSq accel last st lv = .ok st')
    (hgen : ¬ (last = true ∧ accel = true ∧ lv.fullPosture = true))
    (hacc : st'.disabled = st.disabled) :
    ∃ err : Fin lv.m → ℝ, Requests lv err ∧
      st'.control = st.control + (basis st.kernel).K *ᵥ
        increment (svd (effJac lv * (basis st.kernel).K))
          (rankJ th (svd (effJac lv * (basis st.kernel).K)).σ)
          (correctedErr st (effJac lv) err) ∧
      (last = false → st'.kernel = some ⟨_, (basis st.kernel).K *
        rightCols (svd (effJac lv * (basis st.kernel).K))
          (rankJ th (svd (effJac lv * (basis st.kernel).K)).σ)⟩) := by
  obtain ⟨err, hr, ⟨h1, h2, h3, -⟩ | ⟨-, hg⟩⟩ := levelStep_cases svd h
  · exact absurd ⟨h1, h2, h3⟩ hgen
  · refine ⟨err, hr, ?_⟩
    rw [generalLevel_eq svd hg] at hacc ⊢
    obtain ⟨hi, ⟨hc, hz, hk, hd, -⟩ | ⟨hc, hz, hk, hd, -⟩⟩ := updateLevel_cases svd (th := th)
      (maxSq := maxSq) (last := last) (st := st) (K := (basis st.kernel).K)
      (Jt := effJac lv * (basis st.kernel).K) (e := correctedErr st (effJac lv) err)
    · rw [hd] at hacc; simp at hacc
    · exact ⟨hc, fun hl => by rw [hk, hl]; rfl⟩

theorem levelStep_not_last_kernel {th maxSq : ℝ} {accel : Bool} {st st' : St n} {lv : Level n}
    (h : levelStep svd th maxSq accel false st lv = .ok st') (hacc : st'.disabled = st.disabled) :
    st'.kernel ≠ none := by
  obtain ⟨_, -, -, hk⟩ := levelStep_accepted svd h (by simp) hacc
  rw [hk rfl]; simp

/-- Directions left after an accepted regular level do not move its task. -/
theorem kernel_null {th maxSq : ℝ} {accel : Bool} {st st' : St n} {lv : Level n}
    (h : levelStep svd th maxSq accel false st lv = .ok st') (hacc : st'.disabled = st.disabled)
    (hreg : ∀ k, (svd (effJac lv * (basis st.kernel).K)).σ k ≤ th →
      (svd (effJac lv * (basis st.kernel).K)).σ k = 0)
    (d : Fin n → ℝ) (hd : InRange st'.kernel d) : effJac lv *ᵥ d = 0 := by
  obtain ⟨_, -, -, hk⟩ := levelStep_accepted svd h (by simp) hacc
  rw [hk rfl] at hd
  obtain ⟨w, rfl⟩ := inRange_some.mp hd
  have : (effJac lv * (basis st.kernel).K) *ᵥ
      (rightCols (svd (effJac lv * (basis st.kernel).K))
        (rankJ th (svd (effJac lv * (basis st.kernel).K)).σ) *ᵥ w) = 0 := by
    apply mulVec_rightCols_zero
    intro k hk
    apply hreg
    by_contra hlt
    have := (lt_rankJ_iff th _ (svd (effJac lv * (basis st.kernel).K)).antitone k).mpr
      (not_le.mp hlt)
    omega
  rw [← this, Matrix.mulVec_mulVec, Matrix.mulVec_mulVec, Matrix.mul_assoc]

/-- Directions still available that do not move the task of an accepted level are left to the
following levels. -/
theorem kernel_complete {th maxSq : ℝ} {accel : Bool} {st st' : St n} {lv : Level n} (hth : 0 ≤ th)
    (h : levelStep svd th maxSq accel false st lv = .ok st') (hacc : st'.disabled = st.disabled)
    (d : Fin n → ℝ) (hd : InRange st.kernel d) (hJ : effJac lv *ᵥ d = 0) : InRange st'.kernel d := by
  obtain ⟨_, -, -, hk⟩ := levelStep_accepted svd h (by simp) hacc
  obtain ⟨y, rfl⟩ := hd
  rw [Matrix.mulVec_mulVec] at hJ
  obtain ⟨w, rfl⟩ := exists_rightCols (svd (effJac lv * (basis st.kernel).K))
    (rankJ th (svd (effJac lv * (basis st.kernel).K)).σ)
    (by
      intro k hk
      have := (lt_rankJ_iff th _ (svd (effJac lv * (basis st.kernel).K)).antitone k).mp hk
      exact ne_of_gt (lt_of_le_of_lt hth this)) (rankJ_le _ _) y hJ
  rw [hk rfl]
  refine inRange_some.mpr ⟨w, ?_⟩
  rw [Matrix.mulVec_mulVec]

/-- Normal equations: the residual left by a regular level is orthogonal to everything it can reach. -/
theorem increment_residual {m c : ℕ} {A : Matrix (Fin m) (Fin c) ℝ} (S : Svd A) (th : ℝ)
    (hth : 0 ≤ th) (hreg : ∀ k, S.σ k ≤ th → S.σ k = 0) (e : Fin m → ℝ) (w : Fin c → ℝ) :
    (e - A *ᵥ increment S (rankJ th S.σ) e) ⬝ᵥ (A *ᵥ w) = 0 := by
  have h1 := mulVec_increment S (rankJ th S.σ) e (by
      intro k hk
      have := (lt_rankJ_iff th _ S.antitone k).mp hk
      exact ne_of_gt (lt_of_le_of_lt hth this))
  rw [h1, svd_mulVec S w, Matrix.dotProduct_mulVec, ← Matrix.mulVec_transpose, Matrix.mulVec_sub,
    Matrix.mulVec_mulVec, S.U_orth, Matrix.one_mulVec]
  unfold dotProduct
  apply Finset.sum_eq_zero
  intro k _
  simp only [Pi.sub_apply]
  by_cases hk : k.val < rankJ th S.σ
  · simp [hk]
  · have : S.σ k = 0 := by
      apply hreg
      by_contra hlt
      exact hk ((lt_rankJ_iff th _ S.antitone k).mpr (not_le.mp hlt))
    simp [this]

theorem correctedErr_eq {st : St n} {m : ℕ} {J : Matrix (Fin m) (Fin n) ℝ} {err : Fin m → ℝ}
    (hz : st.controlIsZero = true → st.control = 0) :
    correctedErr st J err = err - J *ᵥ st.control := by
  unfold correctedErr
  split
  · rename_i h; rw [hz h, Matrix.mulVec_zero, sub_zero]
  · rfl

/-- The residual after an accepted regular level is orthogonal to what the level could reach. -/
theorem level_residual {th maxSq : ℝ} {accel last : Bool} {st st' : St n} {lv : Level n}
    (hth : 0 ≤ th)
    (h : levelStep svd th maxSq accel last st lv = .ok st')
    (hgen : ¬ (last = true ∧ accel = true ∧ lv.fullPosture = true))
    (hacc : st'.disabled = st.disabled)
    (hz : st.controlIsZero = true → st.control = 0)
    (hreg : ∀ k, (svd (effJac lv * (basis st.kernel).K)).σ k ≤ th →
      (svd (effJac lv * (basis st.kernel).K)).σ k = 0)
    (err : Fin lv.m → ℝ) (hr : Requests lv err)
    (d : Fin n → ℝ) (hd : InRange st.kernel d) :
    (err - effJac lv *ᵥ st'.control) ⬝ᵥ (effJac lv *ᵥ d) = 0 := by
  obtain ⟨err', hr', hc, -⟩ := levelStep_accepted svd h hgen hacc
  have : err' = err := by ext i; rw [← (hr i).2, ← (hr' i).2]
  subst this
  obtain ⟨w, rfl⟩ := hd
  have h0 := increment_residual (svd (effJac lv * (basis st.kernel).K)) th hth hreg
    (correctedErr st (effJac lv) err') w
  rw [Matrix.mulVec_mulVec, hc, Matrix.mulVec_add, Matrix.mulVec_mulVec, ← sub_sub]
  rwa [correctedErr_eq hz] at h0 ⊢

/-! ### Runs -/

/-- The levels of a list are executed one after the other, without the loop being left. -/
inductive Reach (th maxSq : ℝ) (accel : Bool) : List (Level n) → St n → St n → Prop
  | nil (st : St n) : Reach th maxSq accel [] st st
  | cons (p : Level n) (ps : List (Level n)) (st st' stp : St n)
      (h : levelStep svd th maxSq accel false st p = .ok st') (hc : cols st'.kernel ≠ 0)
      (hr : Reach th maxSq accel ps st' stp) : Reach th maxSq accel (p :: ps) st stp

/-- What remains of the loop after a level. -/
def Tail (th maxSq : ℝ) (accel : Bool) (post : List (Level n)) (stl stf : St n) : Prop :=
  ((post = [] ∨ cols stl.kernel = 0) ∧ stf = stl) ∨
  (post ≠ [] ∧ cols stl.kernel ≠ 0 ∧ loop svd th maxSq accel post stl = .ok stf)

theorem loop_cons {th maxSq : ℝ} {accel : Bool} {lv : Level n} {rest : List (Level n)}
    {st stf : St n} :
    loop svd th maxSq accel (lv :: rest) st = .ok stf ↔
      ∃ st', levelStep svd th maxSq accel rest.isEmpty st lv = .ok st' ∧
        Tail svd th maxSq accel rest st' stf := by
  rw [loop, Outcome.bind_eq_ok]
  apply exists_congr
  intro st'
  apply and_congr_right
  intro _
  unfold Tail
  by_cases h1 : rest = []
  · subst h1; simp [eq_comm]
  · by_cases h2 : cols st'.kernel = 0
    · simp [h2, eq_comm]
    · simp [h1, h2]

theorem loop_split {th maxSq : ℝ} {accel : Bool} {pre : List (Level n)} {lv : Level n}
    {post : List (Level n)} {st stf : St n}
    (h : loop svd th maxSq accel (pre ++ lv :: post) st = .ok stf) :
    (∃ stp stl, Reach svd th maxSq accel pre st stp ∧
      levelStep svd th maxSq accel post.isEmpty stp lv = .ok stl ∧
      Tail svd th maxSq accel post stl stf) ∨
    (∃ pre1 p pre2 s, pre = pre1 ++ p :: pre2 ∧ Reach svd th maxSq accel pre1 st s ∧
      levelStep svd th maxSq accel false s p = .ok stf ∧ cols stf.kernel = 0 ∧
      ∀ l post', loop svd th maxSq accel (pre ++ l :: post') st = .ok stf) := by
  induction pre generalizing st with
  | nil =>
    left
    obtain ⟨st', h1, h2⟩ := (loop_cons svd).mp h
    exact ⟨st, st', Reach.nil st, h1, h2⟩
  | cons p ps ih =>
    have h' : loop svd th maxSq accel (p :: (ps ++ lv :: post)) st = .ok stf := h
    obtain ⟨st', h1, h2⟩ := (loop_cons svd).mp h'
    have he : (ps ++ lv :: post).isEmpty = false := by cases ps <;> rfl
    rw [he] at h1
    rcases h2 with ⟨h3 | h3, rfl⟩ | ⟨-, h3, h4⟩
    · cases ps <;> simp at h3
    · right
      refine ⟨[], p, ps, st, rfl, Reach.nil st, h1, h3, ?_⟩
      intro l post'
      show loop svd th maxSq accel (p :: (ps ++ l :: post')) st = .ok stf
      refine (loop_cons svd).mpr ⟨stf, ?_, Or.inl ⟨Or.inr h3, rfl⟩⟩
      have : (ps ++ l :: post').isEmpty = false := by cases ps <;> rfl
      rw [this]; exact h1
    · rcases ih h4 with ⟨stp, stl, hr, ha, hb⟩ | ⟨pre1, q, pre2, s, rfl, hr, ha, hb, hall⟩
      · left
        exact ⟨stp, stl, Reach.cons p ps st st' stp h1 h3 hr, ha, hb⟩
      · right
        refine ⟨p :: pre1, q, pre2, s, rfl, Reach.cons p pre1 st st' s h1 h3 hr, ha, hb, ?_⟩
        intro l post'
        show loop svd th maxSq accel (p :: ((pre1 ++ q :: pre2) ++ l :: post')) st = .ok stf
        refine (loop_cons svd).mpr ⟨st', ?_, Or.inr ⟨?_, h3, hall l post'⟩⟩
        · have : (((pre1 ++ q :: pre2) ++ l :: post')).isEmpty = false := by cases pre1 <;> rfl
          rw [this]; exact h1
        · cases pre1 <;> simp

theorem loop_append {th maxSq : ℝ} {accel : Bool} {pre : List (Level n)} {lv : Level n}
    {post : List (Level n)} {st stp stl stf : St n} (hr : Reach svd th maxSq accel pre st stp)
    (h : levelStep svd th maxSq accel post.isEmpty stp lv = .ok stl)
    (ht : Tail svd th maxSq accel post stl stf) :
    loop svd th maxSq accel (pre ++ lv :: post) st = .ok stf := by
  induction hr with
  | nil st => exact (loop_cons svd).mpr ⟨stl, h, ht⟩
  | cons p ps st st' stp h1 hc hr ih =>
    show loop svd th maxSq accel (p :: (ps ++ lv :: post)) st = .ok stf
    refine (loop_cons svd).mpr ⟨st', ?_, Or.inr ⟨?_, hc, ih h⟩⟩
    · have : (ps ++ lv :: post).isEmpty = false := by cases ps <;> rfl
      rw [this]; exact h1
    · cases ps <;> simp

/-- Whatever the levels, the loop moves the control inside the initial directions only. -/
theorem loop_frame {th maxSq : ℝ} {accel : Bool} {lvs : List (Level n)} {st stf : St n}
    (h : loop svd th maxSq accel lvs st = .ok stf) :
    InRange st.kernel (stf.control - st.control) ∧
    (∃ l, stf.disabled = st.disabled ++ l ∧ ∀ i ∈ l, st.iterTask ≤ i) := by
  induction lvs generalizing st with
  | nil =>
    simp only [loop, Outcome.ok.injEq] at h
    subst h
    exact ⟨by rw [sub_self]; exact InRange.zero _, [], by simp⟩
  | cons lv rest ih =>
    obtain ⟨st', h1, h2⟩ := (loop_cons svd).mp h
    obtain ⟨f1, f2, f3, f4, -⟩ := levelStep_frame svd h1
    have hd : ∃ l, st'.disabled = st.disabled ++ l ∧ ∀ i ∈ l, st.iterTask ≤ i := by
      rcases f4 with h | ⟨h, -⟩
      · exact ⟨[], by simpa using h, by simp⟩
      · exact ⟨[st.iterTask], h, by simp⟩
    rcases h2 with ⟨-, rfl⟩ | ⟨-, -, h3⟩
    · exact ⟨f1, hd⟩
    · obtain ⟨g1, l2, g2, g3⟩ := ih h3
      obtain ⟨l1, e1, e2⟩ := hd
      refine ⟨?_, l1 ++ l2, by rw [g2, e1, List.append_assoc], ?_⟩
      · have := InRange.add (f2 _ g1) f1
        simpa using this
      · intro i hi
        rcases List.mem_append.mp hi with hi | hi
        · exact e2 i hi
        · have := g3 i hi; omega

theorem tail_frame {th maxSq : ℝ} {accel : Bool} {post : List (Level n)} {stl stf : St n}
    (h : Tail svd th maxSq accel post stl stf) :
    InRange stl.kernel (stf.control - stl.control) ∧
    (∃ l, stf.disabled = stl.disabled ++ l ∧ ∀ i ∈ l, stl.iterTask ≤ i) := by
  rcases h with ⟨-, rfl⟩ | ⟨-, -, h⟩
  · exact ⟨by rw [sub_self]; exact InRange.zero _, [], by simp⟩
  · exact loop_frame svd h

theorem reach_frame {th maxSq : ℝ} {accel : Bool} {pre : List (Level n)} {st stp : St n}
    (h : Reach svd th maxSq accel pre st stp) :
    InRange st.kernel (stp.control - st.control) ∧
    (∀ d, InRange stp.kernel d → InRange st.kernel d) ∧
    stp.iterTask = st.iterTask + pre.length ∧
    (∃ l, stp.disabled = st.disabled ++ l ∧ ∀ i ∈ l, st.iterTask ≤ i ∧ i < st.iterTask + pre.length) ∧
    ((st.controlIsZero = true → st.control = 0) → (stp.controlIsZero = true → stp.control = 0)) := by
  induction h with
  | nil st =>
    exact ⟨by rw [sub_self]; exact InRange.zero _, fun d hd => hd, by simp, ⟨[], by simp⟩, id⟩
  | cons p ps st st' stp h1 hc hr ih =>
    obtain ⟨g1, g2, g3, ⟨l2, g4, g5⟩, g6⟩ := ih
    obtain ⟨f1, f2, f3, f4, f5⟩ := levelStep_frame svd h1
    refine ⟨?_, fun d hd => f2 _ (g2 d hd), by rw [g3, f3, List.length_cons]; omega, ?_,
      fun hz => g6 (f5 hz)⟩
    · have := InRange.add (f2 _ g1) f1
      simpa using this
    · rcases f4 with h | ⟨h, -⟩
      · refine ⟨l2, by rw [g4, h], ?_⟩
        intro i hi
        have := g5 i hi
        rw [List.length_cons]; omega
      · refine ⟨st.iterTask :: l2, by rw [g4, h]; simp, ?_⟩
        intro i hi
        rcases List.mem_cons.mp hi with rfl | hi
        · rw [List.length_cons]; omega
        · have := g5 i hi
          rw [List.length_cons]; omega

theorem regular_reach {th maxSq : ℝ} {accel : Bool} {pre : List (Level n)} {lv : Level n}
    {post : List (Level n)} {st stp : St n}
    (hreg : RegularFrom svd th maxSq accel (pre ++ lv :: post) st)
    (h : Reach svd th maxSq accel pre st stp) :
    RegularFrom svd th maxSq accel (lv :: post) stp := by
  induction h with
  | nil st => exact hreg
  | cons p ps st st' stp h1 hc hr ih =>
    have h' : RegularFrom svd th maxSq accel (p :: (ps ++ lv :: post)) st := hreg
    apply ih
    apply h'.2
    have : (ps ++ lv :: post).isEmpty = false := by cases ps <;> rfl
    rw [this]; exact h1

/-- The general branch succeeds or fails the same way whether the level is the last or not, and gives
the same control. -/
theorem levelStep_last {th maxSq : ℝ} {accel last : Bool} {st st' : St n} {lv : Level n}
    (h : levelStep svd th maxSq accel last st lv = .ok st')
    (hp : accel = true → lv.fullPosture = false) (last' : Bool) :
    ∃ st1, levelStep svd th maxSq accel last' st lv = .ok st1 ∧ st1.control = st'.control ∧
      st1.disabled = st'.disabled := by
  unfold levelStep at h ⊢
  obtain ⟨err, he, h2⟩ := Outcome.bind_eq_ok.mp h
  have hf : ∀ l : Bool, (l && accel && lv.fullPosture) = false := by
    intro l
    cases ha : accel
    · simp
    · simp [hp ha]
  rw [hf] at h2
  rw [he]
  simp only [Outcome.bind, hf]
  have hcd : ∀ {m c : ℕ} (K : Matrix (Fin n) (Fin c) ℝ) (Jt : Matrix (Fin m) (Fin c) ℝ)
      (e : Fin m → ℝ),
      (updateLevel svd th maxSq last' st K Jt e).control =
        (updateLevel svd th maxSq last st K Jt e).control ∧
      (updateLevel svd th maxSq last' st K Jt e).disabled =
        (updateLevel svd th maxSq last st K Jt e).disabled := by
    intro m c K Jt e
    unfold updateLevel
    simp only
    split <;> exact ⟨rfl, rfl⟩
  simp only [Bool.false_eq_true, if_false] at h2 ⊢
  unfold generalLevel at h2 ⊢
  cases hk : st.kernel with
  | none =>
    simp only [hk] at h2 ⊢
    split at h2
    · simp at h2
    · rename_i hs
      simp only [Outcome.ok.injEq] at h2
      subst h2
      rw [if_neg hs]
      exact ⟨_, rfl, hcd _ _ _⟩
  | some k =>
    obtain ⟨c, K⟩ := k
    simp only [hk] at h2 ⊢
    split at h2
    · simp at h2
    · rename_i hs
      simp only [Outcome.ok.injEq] at h2
      subst h2
      rw [if_neg hs]
      exact ⟨_, rfl, hcd _ _ _⟩

/-- The start of the control law. -/
theorem computeControlLaw_eq {th maxSq : ℝ} {accel : Bool} {q0 : Option DynVec}
    {proj0 : Option DynMat} {stack : List (Level n)} {u : Fin n → ℝ} {dis : List ℕ} :
    computeControlLaw svd n th maxSq accel q0 proj0 stack = .ok (u, dis) ↔
      (∀ q, q0 = some q → q.size = n) ∧ (q0 = none → stack ≠ []) ∧
      ∃ stf, loop svd th maxSq accel stack (startSt n q0 proj0) = .ok stf ∧
        stf.control = u ∧ stf.disabled = dis := by
  unfold computeControlLaw
  cases q0 with
  | none =>
    simp only [startSt]
    by_cases hs : stack = []
    · subst hs; simp
    · have : stack.isEmpty = false := by simpa using hs
      simp only [this, Bool.false_eq_true, if_false, Outcome.map_eq_ok]
      simp [hs]
  | some q =>
    simp only [startSt]
    by_cases h : q.size = n
    · have hst : (fun i : Fin n => q.v (Fin.cast h.symm i)) =
          fun i : Fin n => if h : i.val < q.size then q.v ⟨i.val, h⟩ else 0 := by
        ext i
        have : i.val < q.size := by omega
        rw [dif_pos this]; rfl
      rw [dif_pos h, hst, Outcome.map_eq_ok]
      simp [h]
    · rw [dif_neg h]
      simp [h]

end Verif.Sot
