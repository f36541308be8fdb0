import Verif.Calendar.Model
import Mathlib.Data.List.Forall2

/-!
# C112: the calendar

The functions registered for a time are called at that time, in the order of registration, after those registered for all times; what happens
when functions change the calendar while it runs is described too.
-/

namespace Verif.Calendar

/-- The pairs of a key, none if it was never used. -/
def pairs (c : Cal) (k : Key) : List Pair := (c.events k).getD []

/-- The functions of a key. -/
def funs (c : Cal) (k : Key) : List Nat := (pairs c k).map Prod.fst

/-! ### Registration -/

/-- **C112.** Registering puts the pair at the end of the list of its key, and changes nothing else. -/
theorem C112_register (c : Cal) (k : Key) (p : Pair) (hk : k ≠ .stop) :
    (c.registerEvent k p).2 = true ∧ pairs (c.registerEvent k p).1 k = pairs c k ++ [p] ∧
    (∀ k', k' ≠ k → pairs (c.registerEvent k p).1 k' = pairs c k') ∧ (c.registerEvent k p).1.ping = c.ping := by
  simp only [Cal.registerEvent, if_neg hk]
  refine ⟨trivial, by simp [pairs, Cal.append], ?_, rfl⟩
  intro k' h
  simp [pairs, Cal.append, h]

/-- **C112.** Stopping a pair that is registered for all times removes its first occurrence and nothing else, and the pair is kept in the list
of the stopped ones. -/
theorem C112_stop (c : Cal) (p : Pair) (hp : p ∈ pairs c .always) :
    (c.registerEvent .stop p).2 = true ∧
    (∀ pre post, pairs c .always = pre ++ p :: post → p ∉ pre → pairs (c.registerEvent .stop p).1 .always = pre ++ post) ∧
    pairs (c.registerEvent .stop p).1 .stop = pairs c .stop ++ [p] ∧
    (∀ t, pairs (c.registerEvent .stop p).1 (.at t) = pairs c (.at t)) := by
  cases h : c.events .always with
  | none => simp [pairs, h] at hp
  | some l =>
    have hp' : p ∈ l := by simpa [pairs, h] using hp
    simp only [Cal.registerEvent, if_true, h, if_pos hp']
    refine ⟨trivial, ?_, by simp [pairs, Cal.append], fun t => by simp [pairs, Cal.append]⟩
    intro pre post hl hpre
    have : l = pre ++ p :: post := by simpa [pairs, h] using hl
    subst this
    simp [pairs, Cal.append, List.erase_append_right _ hpre]

/-- **C112.** Stopping a pair that is not registered for all times is an error, and changes nothing. -/
theorem C112_stop_error (c : Cal) (p : Pair) (hp : p ∉ pairs c .always) : c.registerEvent .stop p = (c, false) := by
  cases h : c.events .always with
  | none => simp [Cal.registerEvent, h]
  | some l =>
    have hp' : p ∉ l := by simpa [pairs, h] using hp
    simp [Cal.registerEvent, h, hp']

/-- The pair that an argument denotes, if it denotes one. -/
def Denotes : Arg → Pair → Prop
  | .fn f doc none, p => p = (f, doc)
  | .fn _ _ (some q), p => p = q
  | .tuple q, p => p = q
  | .str _, _ => False
  | .other, _ => False

theorem registerLoop_spec (k : Key) (hk : k ≠ .stop) : ∀ (args : List Arg) (ps : List Pair) (c : Cal),
    List.Forall₂ Denotes args ps → (c.registerLoop k args).2 = true ∧ pairs (c.registerLoop k args).1 k = pairs c k ++ ps ∧
    (∀ k', k' ≠ k → pairs (c.registerLoop k args).1 k' = pairs c k') := by
  intro args
  induction args with
  | nil =>
    intro ps c h
    cases h
    exact ⟨rfl, by simp [Cal.registerLoop], fun _ _ => rfl⟩
  | cons a as ih =>
    intro ps c h
    cases h with
    | cons hd htl =>
      rename_i p ps'
      have key : c.registerLoop k (a :: as) = (c.registerEvent k p).1.registerLoop k as := by
        obtain ⟨ht, _⟩ := C112_register c k p hk
        cases a with
        | fn f doc fo =>
          cases fo with
          | none =>
            have hd : p = (f, doc) := hd
            subst hd
            simp [Cal.registerLoop, ht]
          | some q =>
            have hd : p = q := hd
            subst hd
            simp [Cal.registerLoop, ht]
        | tuple q =>
          have hd : p = q := hd
          subst hd
          simp [Cal.registerLoop, ht]
        | str s => exact absurd hd id
        | other => exact absurd hd id
      rw [key]
      obtain ⟨h1, h2, h3⟩ := ih ps' (c.registerEvent k p).1 htl
      obtain ⟨_, g2, g3, _⟩ := C112_register c k p hk
      refine ⟨h1, by rw [h2, g2]; simp, ?_⟩
      intro k' hk'
      rw [h3 k' hk', g3 k' hk']

/-- **C112.** Registering several functions, pairs or objects with a functor registers all of them, in order. -/
theorem C112_register_many (c : Cal) (k : Key) (hk : k ≠ .stop) (args : List Arg) (ps : List Pair) (h : List.Forall₂ Denotes args ps) :
    (c.registerEvents k args).2 = true ∧ pairs (c.registerEvents k args).1 k = pairs c k ++ ps ∧
    (∀ k', k' ≠ k → pairs (c.registerEvents k args).1 k' = pairs c k') := by
  have : c.registerEvents k args = c.registerLoop k args := by
    unfold Cal.registerEvents
    split
    · cases h with
      | cons _ h => cases h with
        | cons h _ => exact absurd h id
    · rfl
  rw [this]
  exact registerLoop_spec k hk args ps c h

/-- **C112.** A function and a string register the function with that documentation. -/
theorem C112_register_doc (c : Cal) (k : Key) (hk : k ≠ .stop) (f : Nat) (doc : Option String) (fo : Option Pair) (s : String) :
    (c.registerEvents k [.fn f doc fo, .str s]).2 = true ∧
    pairs (c.registerEvents k [.fn f doc fo, .str s]).1 k = pairs c k ++ [(f, some s)] := by
  have := C112_register c k (f, some s) hk
  exact ⟨this.1, this.2.1⟩

/-- **C112, counterexample.** A list of pairs, that the documentation allows, is an error. -/
theorem C112_list_counterexample (c : Cal) (k : Key) : c.registerEvents k [.other] = (c, false) := rfl

/-- **C112, counterexample.** A function registered for all times with a documentation cannot be stopped by giving the function, unless its own
documentation is that one. -/
theorem C112_stop_doc_counterexample (f : Nat) (doc : Option String) (s : String) (h : doc ≠ some s) :
    let c := (Cal.init.registerEvents .always [.fn f doc none, .str s]).1
    c.stop [.fn f doc none] = (c, false) := by
  intro c
  have hc : pairs c .always = [(f, some s)] := (C112_register_doc Cal.init .always (by decide) f doc none s).2
  have : c.registerEvent .stop (f, doc) = (c, false) := by
    apply C112_stop_error
    rw [hc]
    simp [h]
  show c.registerLoop .stop [.fn f doc none] = _
  simp [Cal.registerLoop, this]

/-- **C112, counterexample.** A function decorated for all times cannot be stopped by its name, which denotes another object. -/
theorem C112_stop_decorated_counterexample (text : String) (f d : Nat) (doc : Option String) (hd : d ≠ f) :
    let r := Cal.init.decorate .always text f doc d
    r.1.2 = true ∧ funs r.1.1 .always = [f] ∧ r.1.1.stop [r.2] = (r.1.1, false) := by
  intro r
  have hc := C112_register_doc Cal.init .always (by decide) f (some (doc.getD "No doc fun")) none (doc.getD "No doc fun")
  have hp : pairs r.1.1 .always = [(f, some (doc.getD "No doc fun"))] := hc.2
  refine ⟨hc.1, by simp [funs, hp], ?_⟩
  have : ∀ x, r.1.1.registerEvent .stop (d, x) = (r.1.1, false) := by
    intro x
    apply C112_stop_error
    rw [hp]
    simp [hd]
  show r.1.1.registerLoop .stop [r.2] = _
  simp only [r, Cal.decorate] at this ⊢
  simp [Cal.registerLoop, this]

/-! ### Running -/

/-- The functions return and leave the calendar as it is. -/
def Quiet (eff : Effect) (fs : List Nat) : Prop := ∀ f ∈ fs, ∀ c, eff f c = (c, true)

theorem loopKey_quiet (eff : Effect) (k : Key) (c : Cal) (hq : Quiet eff (funs c k)) : ∀ (n i : Nat) (tr : List Nat),
    (pairs c k).length < n + i → i ≤ (pairs c k).length → loopKey eff k n i c tr = some (tr ++ (funs c k).drop i, c, true) := by
  intro n
  induction n with
  | zero => intro i tr h1 h2; omega
  | succ n ih =>
    intro i tr h1 h2
    simp only [loopKey]
    change (match (pairs c k)[i]? with | none => _ | some p => _) = _
    by_cases hi : i < (pairs c k).length
    · rw [List.getElem?_eq_getElem hi]
      have hm : (pairs c k)[i].1 ∈ funs c k := List.mem_map.2 ⟨_, List.getElem_mem hi, rfl⟩
      have he := hq _ hm c
      simp only [he, if_true]
      rw [ih (i + 1) _ (by omega) (by omega)]
      have hl : i < (funs c k).length := by simpa [funs] using hi
      rw [List.drop_eq_getElem_cons hl]
      simp [funs]
    · rw [List.getElem?_eq_none (by omega)]
      have : (funs c k).drop i = [] := List.drop_eq_nil_of_le (by simp [funs]; omega)
      simp [this]

theorem loopPing_quiet (eff : Effect) (c : Cal) (hq : Quiet eff c.ping) : ∀ (n i : Nat) (tr : List Nat),
    c.ping.length < n + i → i ≤ c.ping.length → loopPing eff n i c tr = some (tr ++ c.ping.drop i, c, true) := by
  intro n
  induction n with
  | zero => intro i tr h1 h2; omega
  | succ n ih =>
    intro i tr h1 h2
    simp only [loopPing]
    by_cases hi : i < c.ping.length
    · rw [List.getElem?_eq_getElem hi]
      have he := hq _ (List.getElem_mem hi) c
      simp only [he, if_true]
      rw [ih (i + 1) _ (by omega) (by omega), List.drop_eq_getElem_cons hi]
      simp
    · rw [List.getElem?_eq_none (by omega)]
      have : c.ping.drop i = [] := List.drop_eq_nil_of_le (by omega)
      simp [this]

/-- What a run calls: the functions for all times, then, if something was registered for this time, the pings and the functions of this time. -/
def called (c : Cal) (t : Int) : List Nat :=
  funs c .always ++ (if (c.events (.at t)).isSome then c.ping ++ funs c (.at t) else [])

/-- **C112.** When the functions leave the calendar as it is, a run calls the functions for all times, then the pings and the functions of its
time, each list in the order of registration; the calendar stays, so that a run at the same time calls them again. -/
theorem C112_run (eff : Effect) (c : Cal) (t : Int) (n : Nat) (h1 : Quiet eff (funs c .always)) (h2 : Quiet eff (funs c (.at t)))
    (h3 : Quiet eff c.ping) (hn : (pairs c .always).length < n ∧ (pairs c (.at t)).length < n ∧ c.ping.length < n) :
    c.run eff n t = some (called c t, c, true) := by
  have e1 : (if (c.events .always).isSome then loopKey eff .always n 0 c [] else some ([], c, true)) =
      some (funs c .always, c, true) := by
    by_cases ha : (c.events .always).isSome
    · rw [if_pos ha, loopKey_quiet eff .always c h1 n 0 [] (by omega) (by omega)]
      simp
    · rw [if_neg ha]
      have : c.events .always = none := by simpa using ha
      simp [funs, pairs, this]
  simp only [Cal.run, e1]
  by_cases ht : (c.events (.at t)).isSome
  · simp only [if_pos ht, loopPing_quiet eff c h3 n 0 _ (show _ < n + 0 by omega) (Nat.zero_le _),
      loopKey_quiet eff (.at t) c h2 n 0 _ (show _ < n + 0 by omega) (Nat.zero_le _)]
    simp [called, ht]
  · simp only [if_neg ht]
    simp [called, ht]

theorem forward_quiet (eff : Effect) (hq : ∀ f c, eff f c = (c, true)) (n : Nat) (c : Cal) : ∀ (ts : List Int) (tr : List Nat),
    (∀ t ∈ ts, (pairs c .always).length < n ∧ (pairs c (.at t)).length < n ∧ c.ping.length < n) →
    Cal.forward eff n ts c tr = some (tr ++ (ts.map (called c)).flatten, c, true) := by
  intro ts
  induction ts with
  | nil => intro tr _; simp [Cal.forward]
  | cons t ts ih =>
    intro tr h
    simp only [Cal.forward, C112_run eff c t n (fun f _ => hq f) (fun f _ => hq f) (fun f _ => hq f) (h t List.mem_cons_self)]
    rw [ih _ fun t' ht' => h t' (List.mem_cons_of_mem _ ht')]
    simp

/-- **C112.** A fast forward to a time is the runs at zero and at all the times up to that one; to a negative time it does nothing. -/
theorem C112_fast_forward (eff : Effect) (hq : ∀ f c, eff f c = (c, true)) (n : Nat) (c : Cal)
    (hn : ∀ t, (pairs c .always).length < n ∧ (pairs c (.at t)).length < n ∧ c.ping.length < n) :
    (∀ t : Nat, c.fastForward eff n t = some (((List.range (t + 1)).map fun i : Nat => called c (i : Int)).flatten, c, true)) ∧
    (∀ t : Int, t < 0 → c.fastForward eff n t = some ([], c, true)) := by
  constructor
  · intro t
    simp only [Cal.fastForward]
    rw [forward_quiet eff hq n c _ [] fun t _ => hn t]
    simp only [List.nil_append, List.map_map]
    rfl
  · intro t ht
    have : (t + 1).toNat = 0 := by omega
    simp [Cal.fastForward, this, Cal.forward]

/-! ### Functions that change the calendar -/

/-- **C112, counterexample.** A function for all times that stops itself while it runs makes the run skip the next one. -/
theorem C112_stop_inside_counterexample (eff : Effect) (c : Cal) (t : Int) (f g : Nat) (df dg : Option String) (post : List Pair) (n : Nat)
    (ha : pairs c .always = (f, df) :: (g, dg) :: post) (ht : c.events (.at t) = none)
    (hf : eff f c = ((c.registerEvent .stop (f, df)).1, true)) (hq : Quiet eff (post.map Prod.fst)) (hn : post.length + 2 < n) :
    ∃ c', c.run eff n t = some (f :: post.map Prod.fst, c', true) ∧ pairs c' .always = (g, dg) :: post := by
  have hs := C112_stop c (f, df) (by rw [ha]; exact List.mem_cons_self)
  have hl : pairs (c.registerEvent .stop (f, df)).1 .always = (g, dg) :: post := hs.2.1 [] _ (by simpa using ha) (by simp)
  generalize hc' : (c.registerEvent .stop (f, df)).1 = c' at *
  have hsome : (c.events .always).isSome := by
    cases h : c.events .always with
    | none => simp [pairs, h] at ha
    | some l => rfl
  have ht' : c'.events (.at t) = none := by
    rw [← hc']
    simp only [Cal.registerEvent, if_true]
    cases h : c.events .always with
    | none => simpa using ht
    | some l =>
      simp only
      split
      · simp [Cal.append, ht]
      · exact ht
  obtain ⟨m, rfl⟩ : ∃ m, n = m + 1 := ⟨n - 1, by omega⟩
  have loop : ∀ (m i : Nat) (tr : List Nat), 0 < i → i ≤ (pairs c' .always).length → (pairs c' .always).length < m + i →
      loopKey eff .always m i c' tr = some (tr ++ (funs c' .always).drop i, c', true) := by
    intro m
    induction m with
    | zero => intro i tr h0 h1 h2; omega
    | succ m ih =>
      intro i tr h0 h1 h2
      simp only [loopKey]
      change (match (pairs c' .always)[i]? with | none => _ | some p => _) = _
      by_cases hi : i < (pairs c' .always).length
      · rw [List.getElem?_eq_getElem hi]
        have hm : (pairs c' .always)[i].1 ∈ post.map Prod.fst := by
          obtain ⟨j, rfl⟩ : ∃ j, i = j + 1 := ⟨i - 1, by omega⟩
          refine List.mem_map.2 ⟨(pairs c' .always)[j + 1], ?_, rfl⟩
          have hj : j < post.length := by rw [hl] at hi; simpa using hi
          have : (pairs c' .always)[j + 1] = post[j] := by
            have e : (pairs c' .always)[j + 1]? = post[j]? := by rw [hl]; simp
            rw [List.getElem?_eq_getElem hi, List.getElem?_eq_getElem hj] at e
            exact Option.some.inj e
          rw [this]
          exact List.getElem_mem hj
        have he := hq _ hm c'
        simp only [he, if_true]
        rw [ih (i + 1) _ (by omega) (by omega) (by omega)]
        have hlt : i < (funs c' .always).length := by simpa [funs] using hi
        rw [List.drop_eq_getElem_cons hlt]
        simp [funs]
      · rw [List.getElem?_eq_none (by omega)]
        have : (funs c' .always).drop i = [] := List.drop_eq_nil_of_le (by simp [funs]; omega)
        simp [this]
  have first : loopKey eff .always (m + 1) 0 c [] = some (f :: post.map Prod.fst, c', true) := by
    simp only [loopKey]
    change (match (pairs c .always)[0]? with | none => _ | some p => _) = _
    rw [ha]
    simp only [List.getElem?_cons_zero, hf, if_true, List.nil_append]
    rw [loop m 1 [f] (by omega) (by rw [hl]; simp) (by rw [hl]; simp; omega)]
    simp [funs, hl]
  refine ⟨c', ?_, hl⟩
  simp only [Cal.run, if_pos hsome, first, ht']
  simp

/-- **C112.** A function that registers a function for the time of the run, while that time runs, has it called in the same run. -/
theorem C112_register_inside (eff : Effect) (c : Cal) (t : Int) (f g : Nat) (df dg : Option String) (n : Nat)
    (ha : c.events .always = none) (hp : c.ping = []) (ht : c.events (.at t) = some [(f, df)])
    (hf : eff f c = ((c.registerEvent (.at t) (g, dg)).1, true)) (hg : Quiet eff [g]) (hn : 2 < n) :
    ∃ c', c.run eff n t = some ([f, g], c', true) ∧ funs c' (.at t) = [f, g] := by
  have hr := C112_register c (.at t) (g, dg) (by simp)
  have hl : pairs (c.registerEvent (.at t) (g, dg)).1 (.at t) = [(f, df), (g, dg)] := by rw [hr.2.1]; simp [pairs, ht]
  generalize (c.registerEvent (.at t) (g, dg)).1 = c' at *
  obtain ⟨m, rfl⟩ : ∃ m, n = m + 3 := ⟨n - 3, by omega⟩
  refine ⟨c', ?_, by simp [funs, hl]⟩
  have hping : loopPing eff (m + 3) 0 c [] = some ([], c, true) := by simp [loopPing, hp]
  simp only [Cal.run, ha, ht, Option.isSome_none, Option.isSome_some, if_true]
  simp only [Bool.false_eq_true, if_false, hping]
  have h0 : ((c.events (.at t)).getD [])[0]? = some (f, df) := by rw [ht]; rfl
  have h1 : ((c'.events (.at t)).getD [])[1]? = some (g, dg) := by
    change (pairs c' (.at t))[1]? = _
    rw [hl]; rfl
  have h2 : ((c'.events (.at t)).getD [])[2]? = none := by
    change (pairs c' (.at t))[2]? = _
    rw [hl]; rfl
  have eg := hg g (by simp) c'
  rw [if_pos (by rw [ht]; rfl)]
  simp [loopKey, h0, hf, h1, eg, h2]

/-- **C112, counterexample.** A function that registers itself for the time of the run makes that run never end. -/
theorem C112_endless_counterexample (eff : Effect) (t : Int) (f : Nat) (df : Option String)
    (hf : ∀ c, eff f c = ((c.registerEvent (.at t) (f, df)).1, true)) (c : Cal) (hc : c.events .always = none) (hp : c.ping = [])
    (ht : c.events (.at t) = some [(f, df)]) (n : Nat) : c.run eff n t = none := by
  have loop : ∀ (n i : Nat) (c : Cal) (tr : List Nat), pairs c (.at t) = List.replicate (i + 1) (f, df) →
      loopKey eff (.at t) n i c tr = none := by
    intro n
    induction n with
    | zero => intro i c tr _; rfl
    | succ n ih =>
      intro i c tr h
      simp only [loopKey]
      change (match (pairs c (.at t))[i]? with | none => _ | some p => _) = _
      rw [h, List.getElem?_replicate_of_lt (by omega)]
      simp only [hf, if_true]
      apply ih
      rw [(C112_register c (.at t) (f, df) (by simp)).2.1, h, List.replicate_succ' (n := i + 1)]
  cases n with
  | zero => simp [Cal.run, hc, ht, loopPing]
  | succ n =>
    have hping : loopPing eff (n + 1) 0 c [] = some ([], c, true) := by simp [loopPing, hp]
    simp only [Cal.run, hc, ht, Option.isSome_none, Option.isSome_some, if_true]
    simp only [Bool.false_eq_true, if_false, hping]
    rw [if_pos (by rw [ht]; rfl)]
    exact loop (n + 1) 0 c [] (by simp [pairs, ht])

/-- **C112.** An exception in a function ends the run after it: the functions that follow are not called. -/
theorem C112_exception (eff : Effect) (c : Cal) (t : Int) (f : Nat) (df : Option String) (post : List Pair) (n : Nat)
    (ha : pairs c .always = (f, df) :: post) (hf : (eff f c).2 = false) : c.run eff (n + 1) t = some ([f], (eff f c).1, false) := by
  have hsome : (c.events .always).isSome := by
    cases h : c.events .always with
    | none => simp [pairs, h] at ha
    | some l => rfl
  have : loopKey eff .always (n + 1) 0 c [] = some ([f], (eff f c).1, false) := by
    simp only [loopKey]
    change (match (pairs c .always)[0]? with | none => _ | some p => _) = _
    rw [ha]
    simp [hf]
  simp only [Cal.run, if_pos hsome, this]

/-- Two functions at time three and one for all times; the ping comes between. -/
theorem C112_case :
    let c := (((Cal.init.registerEvents (.at 3) [.fn 1 none none, .fn 2 none none]).1.registerEvents .always [.fn 5 none none]).1).addPing 9
    c.run (fun _ c => (c, true)) 10 3 = some ([5, 9, 1, 2], c, true) ∧ c.run (fun _ c => (c, true)) 10 4 = some ([5], c, true) := by
  exact ⟨rfl, rfl⟩

end Verif.Calendar
