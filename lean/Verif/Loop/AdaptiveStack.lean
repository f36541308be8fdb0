import Verif.Loop.Stack
import Verif.Loop.Adaptive

/-!
# C135: a stack of tasks with gain entities, in closed loop
-/

namespace Verif.Loop

open Matrix Verif.Sot Verif.Device Filter Topology

section
variable {N : Nat}

/-- The tasks with the gains that their entities answer at a state. -/
noncomputable def tasksAt (ps : List (MTask N × (List ℝ → ℝ))) (q : List ℝ) : List (MTask N) :=
  ps.map fun p => { p.1 with gain := p.2 (List.ofFn (p.1.map.f (vec N q))) }

theorem regain_stack (q : List ℝ) (ps : List (MTask N × (List ℝ → ℝ))) (bufs : List Buf) (h : bufs.length = ps.length) :
    regain q ((ps.map Prod.fst).map fun t => (⟨[t.map.feat], t.gain, t.selec⟩ : TaskDef)) (ps.map Prod.snd) bufs =
      .ok ((tasksAt ps q).map fun t => ⟨[t.map.feat], t.gain, t.selec⟩) := by
  induction ps generalizing bufs with
  | nil => rfl
  | cons p ps ih =>
    obtain _ | ⟨b, bs⟩ := bufs
    · simp at h
    · have h' : bs.length = ps.length := by simpa using h
      show (collect _ _).bind _ = _
      simp only [collect, Map.feat, Outcome.bind_ok, Outcome.map_ok, Task.C14_single_feature]
      have := ih bs h'
      simp only [Map.feat] at this
      rw [this]
      rfl

theorem SInv.gained {ps : List (MTask N × (List ℝ → ℝ))} {d0 : Dev ℝ} {s : St} {q q' : List ℝ} :
    SInv (tasksAt ps q') d0 s q ↔ SInv (ps.map Prod.fst) d0 s q := by
  have hb : List.Forall₂ (fun (t : MTask N) b => Good N t.map.m b) (tasksAt ps q') s.bufs ↔
      List.Forall₂ (fun (t : MTask N) b => Good N t.map.m b) (ps.map Prod.fst) s.bufs := by
    unfold tasksAt
    rw [List.forall₂_map_left_iff, List.forall₂_map_left_iff]
  exact ⟨fun h => ⟨h.settings, h.state, h.shown, h.size, hb.mp h.bufs⟩, fun h => ⟨h.settings, h.state, h.shown, h.size, hb.mpr h.bufs⟩⟩

theorem Margin.gained {ps : List (MTask N × (List ℝ → ℝ))} {th : ℝ} {x : Fin N → ℝ} (q : List ℝ) (h : Margin th (ps.map Prod.fst) x) :
    Margin th (tasksAt ps q) x := by
  rcases h with h | ⟨a, h1, h2⟩
  · exact .inl h
  · refine .inr ⟨a, h1, fun pre t post hs y => ?_⟩
    unfold tasksAt at hs
    obtain ⟨l1, l2, rfl, rfl, h4⟩ := List.map_eq_append_iff.mp hs
    obtain ⟨p, l3, rfl, rfl, rfl⟩ := List.map_eq_cons_iff.mp h4
    obtain ⟨d, d1, d2, d3⟩ := h2 (l1.map Prod.fst) p.1 (l3.map Prod.fst) (by simp) y
    refine ⟨d, fun p' hp' => ?_, d2, d3⟩
    obtain ⟨p1, hp1, rfl⟩ := List.mem_map.mp hp'
    exact d1 p1.1 (List.mem_map.mpr ⟨p1, hp1, rfl⟩)

variable (svd : ∀ {m c : ℕ} (A : Matrix (Fin m) (Fin c) ℝ), Svd A) {th : ℝ} (maxSq : ℝ)
  {ff : List (Option ℝ) → List (Option ℝ) → ℝ → (Fin 6 → Option ℝ)} {ps : List (MTask N × (List ℝ → ℝ))} {dt : ℝ} {d : Dev ℝ} {q : List ℝ}

theorem gainStep_stack (h : SSetup th ff (ps.map Prod.fst) dt d q) {s : St} {q1 : List ℝ} (hi : SInv (ps.map Prod.fst) d s q1)
    (w : Fin N → ℝ) (hw : w ⬝ᵥ w ≤ maxSq)
    (hmet : ∀ p ∈ ps, ∀ r, (p.1.jac (vec N q1) *ᵥ w) r = -(p.2 (List.ofFn (p.1.map.f (vec N q1)))) * p.1.map.f (vec N q1) r) :
    ∃ s' q', gainStep (stackLoop svd N th maxSq ff (ps.map Prod.fst) dt) (ps.map Prod.snd) s = .ok s' ∧
      SInv (ps.map Prod.fst) d s' q' ∧ s'.reports = s.reports ++ [[]] ∧
      ∀ p ∈ ps, ∀ r, p.1.map.f (vec N q') r = (1 - p.2 (List.ofFn (p.1.map.f (vec N q1))) * dt) * p.1.map.f (vec N q1) r := by
  have hlen : s.bufs.length = ps.length := by
    have := hi.bufs.length_eq
    simpa using this.symm
  have hne : tasksAt ps q1 ≠ [] := by
    have := h.someTask
    intro he
    apply this
    unfold tasksAt at he
    rw [List.map_eq_nil_iff] at he ⊢
    exact he
  have hi' : SInv (tasksAt ps q1) d s q1 := SInv.gained.mpr hi
  obtain ⟨u, bufs, c1, c2, c3, -⟩ := control_stack svd (by have := h.joints; omega) h.threshold ff hne dt hi'.shown hi'.bufs
    ((h.margin.affine h.affine).gained q1) w hw (fun t ht r => by
      obtain ⟨p, hp, rfl⟩ := List.mem_map.mp ht
      exact hmet p hp r)
  obtain ⟨s', q', e1, e2, e3, e4⟩ := step_stack svd h.joints h.base h.mode h.sanity hi' c1 c2
  refine ⟨s', q', ?_, SInv.gained.mp e2, e3, fun p hp r => ?_⟩
  · unfold gainStep
    rw [hi.shown, numbers_nums, Outcome.bind_ok]
    show (regain q1 ((ps.map Prod.fst).map fun t => (⟨[t.map.feat], t.gain, t.selec⟩ : TaskDef)) (ps.map Prod.snd) s.bufs).bind _ = _
    rw [regain_stack q1 ps s.bufs hlen]
    exact e1
  · have haff := h.affine p.1 (List.mem_map.mpr ⟨p, hp, rfl⟩)
    rw [haff.moved (vec N q1) (vec N q') (dt • u) (fun j hj => by rw [e4 j hj]; rfl), Matrix.mulVec_smul]
    show _ + dt * (p.1.jac (vec N q1) *ᵥ u) r = _
    have := c3 { p.1 with gain := p.2 (List.ofFn (p.1.map.f (vec N q1))) } (List.mem_map.mpr ⟨p, hp, rfl⟩) r
    have h2 : (p.1.jac (vec N q1) *ᵥ u) r = -(p.2 (List.ofFn (p.1.map.f (vec N q1)))) * p.1.map.f (vec N q1) r := this
    rw [h2]
    ring

/-- C135. A stack of tasks whose errors are affine, each with a gain entity plugged on its error; the gains times the period stay between two numbers,
positive and below two. If, at each place where the error of each task is between its first value and the opposite, some velocity within the limit
meets all the tasks with the gains of that place, then no task is ever reported, each step multiplies the error of each task by one minus the period
times its own gain at that place, whatever its rank in the stack, and all the errors tend to zero. -/
theorem C135_stack (h : SSetup th ff (ps.map Prod.fst) dt d q) {lo hi : ℝ} (h0 : 0 < lo) (h2 : hi < 2)
    (hl : ∀ p ∈ ps, ∀ e, lo ≤ p.2 e * dt ∧ p.2 e * dt ≤ hi)
    (hw : ∀ x : Fin N → ℝ, (∀ p ∈ ps, ∃ c, |c| ≤ 1 ∧ ∀ r, p.1.map.f x r = c * p.1.map.f (vec N q) r) →
      ∃ w : Fin N → ℝ, w ⬝ᵥ w ≤ maxSq ∧ ∀ p ∈ ps, ∀ r, (p.1.jac x *ᵥ w) r = -(p.2 (List.ofFn (p.1.map.f x))) * p.1.map.f x r) :
    ∃ traj : Nat → List ℝ, (∀ k, ∃ s, gainSteps (stackLoop svd N th maxSq ff (ps.map Prod.fst) dt) (ps.map Prod.snd) k
        (start (stackLoop svd N th maxSq ff (ps.map Prod.fst) dt) d) = .ok s ∧ s.dev.state = nums (traj k) ∧
        s.reports = List.replicate k []) ∧ traj 0 = q ∧
      ∀ p ∈ ps, ∀ r,
        (∀ k, p.1.map.f (vec N (traj (k + 1))) r =
          (1 - p.2 (List.ofFn (p.1.map.f (vec N (traj k)))) * dt) * p.1.map.f (vec N (traj k)) r) ∧
        (∀ k, |p.1.map.f (vec N (traj k)) r| ≤ max |1 - lo| |1 - hi| ^ k * |p.1.map.f (vec N q) r|) ∧
        Tendsto (fun k => p.1.map.f (vec N (traj k)) r) atTop (𝓝 0) := by
  set ρ := max |1 - lo| |1 - hi| with hr
  obtain ⟨p0, hp0⟩ : ∃ p, p ∈ ps := by
    rcases ps with _ | ⟨p, ps⟩
    · exact absurd rfl h.someTask
    · exact ⟨p, by simp⟩
  have hlh : lo ≤ hi := le_trans (hl p0 hp0 []).1 (hl p0 hp0 []).2
  have hr1 : ρ < 1 := by
    rw [hr, max_lt_iff, abs_lt, abs_lt]
    refine ⟨⟨by linarith, by linarith⟩, ⟨by linarith, by linarith⟩⟩
  have hr0 : 0 ≤ ρ := le_trans (abs_nonneg _) (le_max_left _ _)
  have hstep : ∀ p ∈ ps, ∀ e, |1 - p.2 e * dt| ≤ ρ := by
    intro p hp e
    obtain ⟨a1, a2⟩ := hl p hp e
    have b1 : 1 - lo ≤ ρ := le_trans (le_abs_self _) (le_max_left _ _)
    have b2 : -(1 - hi) ≤ ρ := le_trans (neg_le_abs _) (le_max_right _ _)
    rw [abs_le]; constructor <;> linarith
  have hall : ∀ k, ∃ s q', gainSteps (stackLoop svd N th maxSq ff (ps.map Prod.fst) dt) (ps.map Prod.snd) k
        (start (stackLoop svd N th maxSq ff (ps.map Prod.fst) dt) d) = .ok s ∧ SInv (ps.map Prod.fst) d s q' ∧
        s.reports = List.replicate k [] ∧ ∀ p ∈ ps, ∃ c, |c| ≤ ρ ^ k ∧ ∀ r, p.1.map.f (vec N q') r = c * p.1.map.f (vec N q) r := by
    intro k
    induction k with
    | zero => exact ⟨_, q, rfl, h.inv svd maxSq, rfl, fun p _ => ⟨1, by simp, fun r => by simp⟩⟩
    | succ k ih =>
      obtain ⟨s, q1, a1, a2, a3, a4⟩ := ih
      obtain ⟨w, w1, w2⟩ := hw (vec N q1) (fun p hp => by
        obtain ⟨c, c1, c2⟩ := a4 p hp
        exact ⟨c, le_trans c1 (pow_le_one₀ hr0 hr1.le), c2⟩)
      obtain ⟨s', q', b1, b2, b3, b4⟩ := gainStep_stack svd maxSq h a2 w w1 w2
      refine ⟨s', q', ?_, b2, by rw [b3, a3, ← List.replicate_succ'], fun p hp => ?_⟩
      · show (gainSteps _ _ k _).bind _ = _
        rw [a1]; exact b1
      · obtain ⟨c, c1, c2⟩ := a4 p hp
        refine ⟨(1 - p.2 (List.ofFn (p.1.map.f (vec N q1))) * dt) * c, ?_, fun r => by rw [b4 p hp r, c2 r]; ring⟩
        rw [abs_mul, pow_succ, mul_comm (ρ ^ k)]
        exact mul_le_mul (hstep p hp _) c1 (abs_nonneg _) hr0
  choose s traj a1 a2 a3 a4 using hall
  have hnext : ∀ k, ∀ p ∈ ps, ∀ r, p.1.map.f (vec N (traj (k + 1))) r =
      (1 - p.2 (List.ofFn (p.1.map.f (vec N (traj k)))) * dt) * p.1.map.f (vec N (traj k)) r := by
    intro k
    obtain ⟨w, w1, w2⟩ := hw (vec N (traj k)) (fun p hp => by
      obtain ⟨c, c1, c2⟩ := a4 k p hp
      exact ⟨c, le_trans c1 (pow_le_one₀ hr0 hr1.le), c2⟩)
    obtain ⟨s', q', b1, b2, -, b4⟩ := gainStep_stack svd maxSq h (a2 k) w w1 w2
    have hs : gainSteps (stackLoop svd N th maxSq ff (ps.map Prod.fst) dt) (ps.map Prod.snd) (k + 1)
        (start (stackLoop svd N th maxSq ff (ps.map Prod.fst) dt) d) = .ok s' := by
      show (gainSteps _ _ k _).bind _ = _
      rw [a1 k]; exact b1
    rw [a1 (k + 1)] at hs
    have hs' : s (k + 1) = s' := by injection hs
    have hq : traj (k + 1) = q' := nums_inj (by rw [← (a2 (k + 1)).state, hs', b2.state])
    rw [hq]
    exact b4
  refine ⟨traj, fun k => ⟨s k, a1 k, (a2 k).state, a3 k⟩, ?_, fun p hp r => ⟨fun k => hnext k p hp r, ?_⟩⟩
  · have hs : start (stackLoop svd N th maxSq ff (ps.map Prod.fst) dt) d = s 0 := by
      have := a1 0
      simp only [gainSteps, Outcome.ok.injEq] at this
      exact this
    refine nums_inj ?_
    rw [← (a2 0).state, ← hs]
    exact h.state
  · have hbound : ∀ k, |p.1.map.f (vec N (traj k)) r| ≤ ρ ^ k * |p.1.map.f (vec N q) r| := by
      intro k
      obtain ⟨c, c1, c2⟩ := a4 k p hp
      rw [c2 r, abs_mul]
      exact mul_le_mul_of_nonneg_right c1 (abs_nonneg _)
    refine ⟨hbound, ?_⟩
    have hlim : Tendsto (fun k => ρ ^ k * |p.1.map.f (vec N q) r|) atTop (𝓝 0) := by
      have := (tendsto_pow_atTop_nhds_zero_of_lt_one hr0 hr1).mul_const |p.1.map.f (vec N q) r|
      rwa [zero_mul] at this
    exact squeeze_zero_norm (fun k => by rw [Real.norm_eq_abs]; exact hbound k) hlim

end

/-! ### The hypotheses are met -/

/-- The joint 6 has to be at one, its sum with the joint 7 at three. The first task has an adaptive gain between two and twenty, the second one a
hyperbolic gain between five and ten; the period is ten milliseconds. -/
noncomputable def demoPairs : List (MTask 8 × (List ℝ → ℝ)) :=
  [(rowTask c6 1 0, (Gain.Adaptive.init 20 2 3).gain), (rowTask c67 3 0, (Gain.Hyperbolic.init 10 5 1 1).gain)]

theorem demoPairs_setup : SSetup 0 (fun _ _ _ _ => some 0) (demoPairs.map Prod.fst) (1 / 100) zeroDev (List.replicate 8 0) :=
  ⟨by decide, le_refl _, by simp [demoPairs], by
    intro t ht
    simp only [demoPairs, List.map_cons, List.map_nil, List.mem_cons, List.not_mem_nil, or_false] at ht
    rcases ht with rfl | rfl
    · refine rowTask_affine _ _ _ fun j hj => if_neg ?_
      rintro rfl
      exact absurd hj (by decide)
    · refine rowTask_affine _ _ _ fun j hj => ?_
      unfold c67
      rw [if_neg (by rintro rfl; exact absurd hj (by decide)), if_neg (by rintro rfl; exact absurd hj (by decide))],
    .inl rfl, fun _ _ _ => by simp, by simp, rfl, rfl, rfl, rfl⟩

theorem demoPairs_gains : ∀ p ∈ demoPairs, ∀ e, 2 ≤ p.2 e ∧ p.2 e ≤ 20 := by
  intro p hp e
  simp only [demoPairs, List.mem_cons, List.not_mem_nil, or_false] at hp
  rcases hp with rfl | rfl
  · obtain ⟨h1, h2⟩ := Gain.Adaptive.C19_between 20 2 3 (by norm_num) e
    exact ⟨le_trans (by norm_num) h1, le_trans h2 (by norm_num)⟩
  · obtain ⟨h1, h2⟩ := Gain.Hyperbolic.C20_strictly_between 10 5 1 1 (by norm_num) e
    constructor
    · exact le_trans (by norm_num) h1.le
    · exact le_trans h2.le (by norm_num)

/-- Both errors tend to zero. -/
example (svd : ∀ {m c : ℕ} (A : Matrix (Fin m) (Fin c) ℝ), Svd A) :
    ∃ traj : Nat → List ℝ, (∀ k, ∃ s, gainSteps (stackLoop svd 8 0 20000 (fun _ _ _ _ => some 0) (demoPairs.map Prod.fst) (1 / 100))
        (demoPairs.map Prod.snd) k (start (stackLoop svd 8 0 20000 (fun _ _ _ _ => some 0) (demoPairs.map Prod.fst) (1 / 100)) zeroDev) = .ok s ∧
        s.dev.state = nums (traj k) ∧ s.reports = List.replicate k []) ∧
      Tendsto (fun k => vec 8 (traj k) 6) atTop (𝓝 1) ∧ Tendsto (fun k => vec 8 (traj k) 6 + vec 8 (traj k) 7) atTop (𝓝 3) := by
  have hv : vec 8 (List.replicate 8 0) = 0 := by
    funext i
    unfold vec
    rw [List.getD, List.getElem?_replicate, if_pos i.isLt]; rfl
  have h6 : ∀ z : Fin 8 → ℝ, c6 ⬝ᵥ z = z 6 := by
    intro z
    simp [c6, dotProduct]
  have h67 : ∀ z : Fin 8 → ℝ, c67 ⬝ᵥ z = z 6 + z 7 := by
    intro z
    simp [c67, dotProduct, Fin.sum_univ_eight]
  have hjac : ∀ (c : Fin 8 → ℝ) (b g : ℝ) (x w : Fin 8 → ℝ) (r : Fin 1), ((rowTask c b g).jac x *ᵥ w) r = c ⬝ᵥ w := by
    intro c b g x w r
    unfold Matrix.mulVec
    congr 1
  obtain ⟨traj, a1, -, a3⟩ := C135_stack svd 20000 demoPairs_setup (lo := 2 / 100) (hi := 20 / 100) (by norm_num) (by norm_num)
    (fun p hp e => by
      obtain ⟨h1, h2⟩ := demoPairs_gains p hp e
      constructor <;> linarith)
    (fun x hx => by
      obtain ⟨ca, ca1, ca2⟩ := hx (rowTask c6 1 0, (Gain.Adaptive.init 20 2 3).gain) (by simp [demoPairs])
      obtain ⟨cb, cb1, cb2⟩ := hx (rowTask c67 3 0, (Gain.Hyperbolic.init 10 5 1 1).gain) (by simp [demoPairs])
      have e1 : c6 ⬝ᵥ x - 1 = ca * (c6 ⬝ᵥ vec 8 (List.replicate 8 0) - 1) := ca2 (0 : Fin 1)
      have e2 : c67 ⬝ᵥ x - 3 = cb * (c67 ⬝ᵥ vec 8 (List.replicate 8 0) - 3) := cb2 (0 : Fin 1)
      rw [hv] at e1 e2
      rw [h6] at e1
      rw [h67] at e2
      rw [show c6 ⬝ᵥ (0 : Fin 8 → ℝ) = 0 by simp] at e1
      rw [show c67 ⬝ᵥ (0 : Fin 8 → ℝ) = 0 by simp] at e2
      obtain ⟨g1, g2⟩ := demoPairs_gains (rowTask c6 1 0, (Gain.Adaptive.init 20 2 3).gain) (by simp [demoPairs])
        (List.ofFn ((rowTask c6 1 0).map.f x))
      obtain ⟨k1, k2⟩ := demoPairs_gains (rowTask c67 3 0, (Gain.Hyperbolic.init 10 5 1 1).gain) (by simp [demoPairs])
        (List.ofFn ((rowTask c67 3 0).map.f x))
      set g := (Gain.Adaptive.init 20 2 3).gain (List.ofFn ((rowTask c6 1 0).map.f x)) with hg
      set k := (Gain.Hyperbolic.init 10 5 1 1).gain (List.ofFn ((rowTask c67 3 0).map.f x)) with hk
      simp only at g1 g2 k1 k2
      rw [abs_le] at ca1 cb1
      refine ⟨fun j => if j = 6 then -g * (x 6 - 1) else if j = 7 then -k * (x 6 + x 7 - 3) + g * (x 6 - 1) else 0, ?_, ?_⟩
      · have b1 : |g * (x 6 - 1)| ≤ 20 := by
          rw [e1, abs_mul, abs_of_nonneg (by linarith : (0 : ℝ) ≤ g)]
          have : |ca * (0 - 1)| ≤ 1 := by rw [abs_le]; constructor <;> linarith
          nlinarith [abs_nonneg (ca * (0 - 1))]
        have b2 : |k * (x 6 + x 7 - 3)| ≤ 60 := by
          rw [e2, abs_mul, abs_of_nonneg (by linarith : (0 : ℝ) ≤ k)]
          have : |cb * (0 - 3)| ≤ 3 := by rw [abs_le]; constructor <;> linarith
          nlinarith [abs_nonneg (cb * (0 - 3))]
        rw [abs_le] at b1 b2
        simp only [dotProduct, Fin.sum_univ_eight]
        simp only [if_true, Fin.reduceEq, if_false]
        nlinarith
      · intro p hp r
        simp only [demoPairs, List.mem_cons, List.not_mem_nil, or_false] at hp
        rcases hp with rfl | rfl
        · refine (hjac c6 1 0 x _ r).trans ?_
          rw [h6]
          show _ = -g * (c6 ⬝ᵥ x - 1)
          rw [h6, if_pos rfl]
        · refine (hjac c67 3 0 x _ r).trans ?_
          rw [h67]
          show _ = -k * (c67 ⬝ᵥ x - 3)
          rw [h67, if_pos rfl, if_neg (by decide), if_pos rfl]
          ring)
  refine ⟨traj, a1, ?_, ?_⟩
  · have := (a3 (rowTask c6 1 0, (Gain.Adaptive.init 20 2 3).gain) (by simp [demoPairs]) (0 : Fin 1)).2.2
    have h1 : Tendsto (fun k => c6 ⬝ᵥ vec 8 (traj k) - 1) atTop (𝓝 0) := this
    have h2 := h1.add_const 1
    rw [zero_add] at h2
    exact h2.congr fun k => by rw [h6]; ring
  · have := (a3 (rowTask c67 3 0, (Gain.Hyperbolic.init 10 5 1 1).gain) (by simp [demoPairs]) (0 : Fin 1)).2.2
    have h1 : Tendsto (fun k => c67 ⬝ᵥ vec 8 (traj k) - 3) atTop (𝓝 0) := this
    have h2 := h1.add_const 3
    rw [zero_add] at h2
    exact h2.congr fun k => by rw [h67]; ring

end Verif.Loop
