import Verif.TrajText.Model

/-!
# Lemmas about the matches of the expressions
-/

namespace Verif.TrajText

/-! ### Repetitions -/

/-- Only the longest repetition matters when what follows cannot begin with a character of the class. -/
theorem stars_flatMap {β : Type} {p : Char → Bool} {g : List Char → List β} (hg : ∀ d s, p d = true → g (d :: s) = [])
    {w : List Char} (hw : ∀ d ∈ w, p d = true) {c : Char} (hc : p c = false) (s : List Char) :
    (stars p (w ++ c :: s)).flatMap g = g (c :: s) := by
  induction w with
  | nil => simp [stars, hc]
  | cons d w ih =>
    have hd : p d = true := hw d (by simp)
    have hw' : ∀ e ∈ w, p e = true := fun e he => hw e (by simp [he])
    simp [stars, hd, List.flatMap_append, ih hw', hg]

/-- What a repetition leaves of a text that has a character outside the class. -/
theorem stars_mem {p : Char → Bool} {u : List Char} {x : Char} (hx : p x = false) {r z : List Char} (h : z ∈ stars p (u ++ x :: r)) :
    ∃ u', z = u' ++ x :: r ∧ ∀ d ∈ u', d ∈ u := by
  induction u with
  | nil =>
    simp [stars, hx] at h
    exact ⟨[], by simp [h]⟩
  | cons d u ih =>
    by_cases hd : p d = true
    · simp only [List.cons_append, stars, hd, if_true, List.mem_append, List.mem_singleton] at h
      rcases h with h | h
      · obtain ⟨u', e, hu⟩ := ih h
        exact ⟨u', e, fun d' h' => by simp [hu d' h']⟩
      · exact ⟨d :: u, by simp [h], fun d' h' => h'⟩
    · simp [stars, hd] at h
      exact ⟨d :: u, by simp [h], fun d' h' => h'⟩

theorem stars_suffix {p : Char → Bool} {s z : List Char} (h : z ∈ stars p s) : ∃ m, s = m ++ z ∧ ∀ c ∈ m, p c = true := by
  induction s with
  | nil =>
    simp [stars] at h
    exact ⟨[], by simp [h]⟩
  | cons d s ih =>
    by_cases hd : p d = true
    · simp only [stars, hd, if_true, List.mem_append, List.mem_singleton] at h
      rcases h with h | h
      · obtain ⟨m, e, hm⟩ := ih h
        exact ⟨d :: m, by simp [← e], by simpa using ⟨hd, hm⟩⟩
      · exact ⟨[], by simp [h]⟩
    · simp [stars, hd] at h
      exact ⟨[], by simp [h]⟩

theorem self_mem_stars (p : Char → Bool) (s : List Char) : s ∈ stars p s := by
  cases s with
  | nil => simp [stars]
  | cons c s => by_cases h : p c = true <;> simp [stars, h]

/-! ### Sequences of a repetition and a separator -/

theorem run_chr (c : Char) (s : List Char) (k : Caps) : (Rx.chr c).run (c :: s) k = [(s, k)] := by simp [Rx.chr, Rx.run]

theorem run_chr_ne {c d : Char} (h : d ≠ c) (s : List Char) (k : Caps) : (Rx.chr c).run (d :: s) k = [] := by simp [Rx.chr, Rx.run, h]

theorem run_seq_chr (c : Char) (b : Rx) (s : List Char) (k : Caps) : ((Rx.chr c).seq b).run (c :: s) k = b.run s k := by
  simp [Rx.run, run_chr]

theorem run_seq_chr_ne {c d : Char} (h : d ≠ c) (b : Rx) (s : List Char) (k : Caps) : ((Rx.chr c).seq b).run (d :: s) k = [] := by
  simp [Rx.run, run_chr_ne h]

/-- A captured non-empty repetition, then something that cannot begin in the class. -/
theorem run_grp_plus {p : Char → Bool} {n : Nat} {b : Rx} (hb : ∀ d s k, p d = true → b.run (d :: s) k = []) {w : List Char}
    (hw : ∀ d ∈ w, p d = true) (hne : w ≠ []) {c : Char} (hc : p c = false) (s : List Char) (k : Caps) :
    ((Rx.grp n (.plus p)).seq b).run (w ++ c :: s) k = b.run (c :: s) (fun i => if i = n then w else k i) := by
  obtain ⟨d, w, rfl⟩ := List.exists_cons_of_ne_nil hne
  have hd : p d = true := hw d (by simp)
  have hw' : ∀ e ∈ w, p e = true := fun e he => hw e (by simp [he])
  simp only [Rx.run, Rx.plus, List.cons_append, hd, if_true, List.flatMap_cons, List.flatMap_nil, List.append_nil,
    List.flatMap_map, List.map_map]
  refine (stars_flatMap ?_ hw' hc s).trans ?_
  · intro e z he
    exact hb _ _ _ he
  · simp only [Function.comp]
    congr 1
    funext i
    by_cases hi : i = n
    · simp only [hi, if_true, List.length_cons, List.length_append]
      rw [show w.length + (s.length + 1) + 1 - (s.length + 1) = w.length + 1 by omega]
      simp
    · simp [hi]

/-- A captured repetition, then something that cannot begin in the class. -/
theorem run_grp_star {p : Char → Bool} {n : Nat} {b : Rx} (hb : ∀ d s k, p d = true → b.run (d :: s) k = []) {w : List Char}
    (hw : ∀ d ∈ w, p d = true) {c : Char} (hc : p c = false) (s : List Char) (k : Caps) :
    ((Rx.grp n (.star p)).seq b).run (w ++ c :: s) k = b.run (c :: s) (fun i => if i = n then w else k i) := by
  simp only [Rx.run, List.flatMap_map, List.map_map]
  refine (stars_flatMap ?_ hw hc s).trans ?_
  · intro e z he
    exact hb _ _ _ he
  · simp only [Function.comp]
    congr 1
    funext i
    by_cases hi : i = n
    · simp only [hi, if_true, List.length_cons, List.length_append]
      rw [show w.length + (s.length + 1) - (s.length + 1) = w.length by omega]
      simp
    · simp [hi]

/-- A non-empty repetition, then something that cannot begin in the class. -/
theorem run_plus {p : Char → Bool} {b : Rx} (hb : ∀ d s k, p d = true → b.run (d :: s) k = []) {w : List Char}
    (hw : ∀ d ∈ w, p d = true) (hne : w ≠ []) {c : Char} (hc : p c = false) (s : List Char) (k : Caps) :
    ((Rx.plus p).seq b).run (w ++ c :: s) k = b.run (c :: s) k := by
  obtain ⟨d, w, rfl⟩ := List.exists_cons_of_ne_nil hne
  have hd : p d = true := hw d (by simp)
  have hw' : ∀ e ∈ w, p e = true := fun e he => hw e (by simp [he])
  simp only [Rx.run, Rx.plus, List.cons_append, hd, if_true, List.flatMap_cons, List.flatMap_nil, List.append_nil,
    List.flatMap_map]
  exact stars_flatMap (g := fun r => b.run r k) (fun e z he => hb _ _ _ he) hw' hc s

theorem digit_dot : digit '.' = false := by decide
theorem signDigit_dot : signDigit '.' = false := by decide

theorem chr_of_class {p : Char → Bool} {c : Char} (hc : p c = false) (b : Rx) (d : Char) (s : List Char) (k : Caps) (hd : p d = true) :
    ((Rx.chr c).seq b).run (d :: s) k = [] :=
  run_seq_chr_ne (fun e => by rw [e, hc] at hd; cases hd) b s k

/-- The matches of a number. -/
theorem run_float {a : List Char} (ha : ∀ d ∈ a, signDigit d = true) (hne : a ≠ []) (s : List Char) (k : Caps) :
    floatRe.run (a ++ '.' :: s) k = (stars digit s).map fun r => (r, k) := by
  rw [floatRe, run_plus (chr_of_class signDigit_dot _) ha hne signDigit_dot, run_seq_chr]
  rfl

/-- A captured number, then something that cannot begin with a digit. -/
theorem run_grp_float {n : Nat} {e : Rx} (he : ∀ d s k, digit d = true → e.run (d :: s) k = []) {a b : List Char}
    (ha : ∀ d ∈ a, signDigit d = true) (hne : a ≠ []) (hb : ∀ d ∈ b, digit d = true) {c : Char} (hc : digit c = false) (s : List Char)
    (k : Caps) :
    ((Rx.grp n floatRe).seq e).run (a ++ '.' :: (b ++ c :: s)) k = e.run (c :: s) (fun i => if i = n then a ++ '.' :: b else k i) := by
  rw [Rx.run, Rx.run, run_float ha hne]
  simp only [List.flatMap_map, List.map_map]
  refine (stars_flatMap ?_ hb hc s).trans ?_
  · intro d z hd
    exact he _ _ _ hd
  · simp only [Function.comp]
    congr 1
    funext i
    by_cases hi : i = n
    · simp only [hi, if_true, List.length_cons, List.length_append]
      rw [show a.length + (b.length + (s.length + 1) + 1) - (s.length + 1) = a.length + ('.' :: b).length by simp; omega]
      rw [List.take_length_add_append, List.length_cons, List.take_succ_cons, List.take_left']
      rfl
    · simp [hi]

/-! ### Searches -/

theorem search_skip {e : Rx} {c : Char} {s : List Char} (h : e.run (c :: s) (fun _ => []) = []) : search e (c :: s) = search e s := by
  rw [search, h]
  rfl

theorem search_head {e : Rx} {s : List Char} {r : List Char × Caps} (h : (e.run s fun _ => []).head? = some r) :
    search e s = some r := by
  cases s with
  | nil => rw [search, h]
  | cons c s => rw [search, h]

/-- A search for a character finds its first occurrence. -/
theorem search_chr {c : Char} {w : List Char} (hw : c ∉ w) (s : List Char) : search (.chr c) (w ++ c :: s) = some (s, fun _ => []) := by
  induction w with
  | nil => exact search_head (by simp [run_chr])
  | cons d w ih =>
    have hd : d ≠ c := fun h => hw (by simp [h])
    rw [List.cons_append, search_skip (run_chr_ne hd _ _)]
    exact ih fun h => hw (by simp [h])

theorem search_chr_none {c : Char} {w : List Char} (hw : c ∉ w) : search (.chr c) w = none := by
  induction w with
  | nil => simp [search, Rx.chr, Rx.run]
  | cons d w ih =>
    have hd : d ≠ c := fun h => hw (by simp [h])
    rw [search_skip (run_chr_ne hd _ _)]
    exact ih fun h => hw (by simp [h])

theorem search_commaOpen (s : List Char) : search commaOpenRe (',' :: '(' :: s) = some (s, fun _ => []) :=
  search_head (by simp [commaOpenRe, run_seq_chr, run_chr])

/-- The result of a search is the first match at some position. -/
theorem search_sound {e : Rx} {s : List Char} {r : List Char × Caps} (h : search e s = some r) :
    ∃ a b, s = a ++ b ∧ (e.run b fun _ => []).head? = some r ∧ ∀ a1 a2, a = a1 ++ a2 → a2 ≠ [] → e.run (a2 ++ b) (fun _ => []) = [] := by
  induction s with
  | nil => exact ⟨[], [], rfl, by simpa [search] using h, fun a1 a2 e h => absurd (List.append_eq_nil_iff.1 e.symm).2 h⟩
  | cons c s ih =>
    rw [search] at h
    split at h
    · rename_i r' hr
      exact ⟨[], c :: s, rfl, by rw [hr]; exact h, fun a1 a2 e h => absurd (List.append_eq_nil_iff.1 e.symm).2 h⟩
    · rename_i hr
      obtain ⟨a, b, e1, e2, e3⟩ := ih h
      refine ⟨c :: a, b, by simp [e1], e2, fun a1 a2 e h2 => ?_⟩
      cases a1 with
      | nil =>
        simp only [List.nil_append] at e
        rw [← e, List.cons_append, ← e1]
        simpa using hr
      | cons d a1 =>
        simp only [List.cons_append, List.cons.injEq] at e
        exact e3 a1 a2 e.2 h2

/-- A search succeeds if there is a match at some position. -/
theorem search_complete {e : Rx} {a b : List Char} {r : List Char × Caps} (h : r ∈ e.run b fun _ => []) :
    (search e (a ++ b)).isSome = true := by
  induction a with
  | nil =>
    cases hr : e.run b fun _ => [] with
    | nil => simp [hr] at h
    | cons x l =>
      rw [List.nil_append, search_head (r := x) (by rw [hr]; rfl)]
      rfl
  | cons c a ih =>
    rw [List.cons_append, search]
    split
    · rfl
    · exact ih

/-- A match takes a prefix of the text. -/
theorem run_suffix {e : Rx} {s : List Char} {k : Caps} {r : List Char × Caps} (h : r ∈ e.run s k) : ∃ m, s = m ++ r.1 := by
  induction e generalizing s k r with
  | cls p =>
    cases s with
    | nil => simp [Rx.run] at h
    | cons c s =>
      by_cases hc : p c = true
      · simp [Rx.run, hc] at h
        exact ⟨[c], by simp [h]⟩
      · simp [Rx.run, hc] at h
  | star p =>
    simp only [Rx.run, List.mem_map] at h
    obtain ⟨z, hz, rfl⟩ := h
    obtain ⟨m, e, -⟩ := stars_suffix hz
    exact ⟨m, e⟩
  | starPoss p =>
    simp [Rx.run] at h
    exact ⟨s.takeWhile p, by rw [h, List.takeWhile_append_dropWhile]⟩
  | seq a b iha ihb =>
    simp only [Rx.run, List.mem_flatMap] at h
    obtain ⟨x, hx, hr⟩ := h
    obtain ⟨m, e⟩ := iha hx
    obtain ⟨m', e'⟩ := ihb hr
    exact ⟨m ++ m', by rw [e, e']; simp⟩
  | alt a b iha ihb =>
    simp only [Rx.run, List.mem_append] at h
    exact h.elim iha ihb
  | grp n a iha =>
    simp only [Rx.run, List.mem_map] at h
    obtain ⟨x, hx, rfl⟩ := h
    obtain ⟨m, e⟩ := iha hx
    exact ⟨m, e⟩
  | eps =>
    simp [Rx.run] at h
    exact ⟨[], by simp [h]⟩

/-! ### The names -/

/-- A name character and a separator match. -/
theorem run_names_close {b : List Char} {c sep : Char} (hc : nameChar c = true) (hs : sep = ',' ∨ sep = ')') :
    ∃ k, namesRe.run (c :: sep :: b) (fun _ => []) = [(b, k)] := by
  have hn : nameChar sep = false := by rcases hs with rfl | rfl <;> decide
  rw [namesRe]
  have := run_grp_plus (p := nameChar) (n := 1) (b := .grp 2 (.alt (.chr ',') (.chr ')'))) ?_ (w := [c]) (by simpa using hc) (by simp) hn b
    (fun _ => [])
  · rw [List.singleton_append] at this
    rw [this]
    rcases hs with rfl | rfl <;> simp [Rx.run, Rx.chr]
  · intro d s k hd
    have h1 : d ≠ ',' := fun h => by rw [h] at hd; revert hd; decide
    have h2 : d ≠ ')' := fun h => by rw [h] at hd; revert hd; decide
    simp [Rx.run, Rx.chr, h1, h2]

/-- A name character followed by a separator lets the search succeed. -/
theorem search_names_complete {a b : List Char} {c sep : Char} (hc : nameChar c = true) (hs : sep = ',' ∨ sep = ')') :
    (search namesRe (a ++ c :: sep :: b)).isSome = true := by
  obtain ⟨k, hk⟩ := run_names_close (b := b) hc hs
  exact search_complete (r := (b, k)) (by rw [hk]; simp)

/-- The result of a search for a name: the name takes the longest run of name characters before the separator. -/
theorem search_names_sound {s rest : List Char} {what : Caps} (h : search namesRe s = some (rest, what)) :
    ∃ a w c sep, s = a ++ w ++ c :: sep :: rest ∧ (∀ d ∈ w, nameChar d = true) ∧ nameChar c = true ∧ (sep = ',' ∨ sep = ')') ∧
      what 1 = w ++ [c] ∧ what 2 = [sep] ∧
      ∀ a1 c' sep' a2, a ≠ a1 ++ c' :: sep' :: a2 ∨ nameChar c' = false ∨ sep' ≠ ')' := by
  obtain ⟨a, b, rfl, hr, hleft⟩ := search_sound h
  have hm := List.mem_of_head? hr
  simp only [namesRe, Rx.run, Rx.plus, List.mem_flatMap, List.mem_map] at hm
  obtain ⟨x, ⟨y, ⟨z, hz, hy⟩, rfl⟩, ⟨u, hu, e⟩⟩ := hm
  cases b with
  | nil => simp [Rx.run] at hz
  | cons c b =>
    by_cases hc : nameChar c = true
    · simp [Rx.run, hc] at hz
      subst hz
      obtain ⟨v, hv, rfl⟩ := hy
      obtain ⟨m, rfl, hm⟩ := stars_suffix hv
      obtain ⟨m', e'⟩ := run_suffix (e := .alt (.chr ',') (.chr ')')) (r := u) (by simpa [Rx.run] using hu)
      have hsep : ∃ sep, v = sep :: u.1 ∧ (sep = ',' ∨ sep = ')') ∧ u.2 = fun i => if i = 1 then c :: m else [] := by
        have hcap : List.take ((c :: (m ++ v)).length - v.length) (c :: (m ++ v)) = c :: m := by
          rw [List.length_cons, List.length_append, show m.length + v.length + 1 - v.length = m.length + 1 by omega]
          simp
        simp only [hcap] at hu
        cases v with
        | nil => simp [Rx.run, Rx.chr] at hu
        | cons sep v =>
          refine ⟨sep, ?_⟩
          simp only [Rx.run, Rx.chr, List.mem_append] at hu
          rcases hu with hu | hu
          · by_cases h1 : sep = ','
            · simp [h1] at hu
              simp [hu, h1]
            · simp [h1] at hu
          · by_cases h1 : sep = ')'
            · simp [h1] at hu
              simp [hu, h1]
            · simp [h1] at hu
      obtain ⟨sep, rfl, hs, hu2⟩ := hsep
      have hcm : ∃ w d, c :: m = w ++ [d] := by
        rcases List.eq_nil_or_concat (c :: m) with h | ⟨w, d, h⟩
        · cases h
        · exact ⟨w, d, by simpa using h⟩
      obtain ⟨w, d, hwd⟩ := hcm
      have hall : ∀ x ∈ w ++ [d], nameChar x = true := by
        rw [← hwd]
        simpa using ⟨hc, hm⟩
      have e1 : rest = u.1 := by simpa using (congrArg Prod.fst e).symm
      have e2 : _ = what := congrArg Prod.snd e
      refine ⟨a, w, d, sep, ?_, fun x hx => hall x (by simp [hx]), hall d (by simp), hs, ?_, ?_, ?_⟩
      · rw [e1]
        have : c :: (m ++ sep :: u.1) = (c :: m) ++ sep :: u.1 := rfl
        rw [this, hwd]
        simp
      · rw [← e2, ← hwd]
        simp [hu2]
      · rw [← e2]
        simp
      · intro a1 c' sep' a2
        by_cases h1 : a = a1 ++ c' :: sep' :: a2
        · right
          by_cases h2 : sep' = ')'
          · left
            by_cases h3 : nameChar c' = true
            · obtain ⟨k, hk⟩ := run_names_close (b := a2 ++ c :: (m ++ sep :: u.1)) h3 (.inr h2)
              have := hleft a1 (c' :: sep' :: a2) h1 (by simp)
              simp only [List.cons_append] at this
              rw [hk] at this
              cases this
            · simpa using h3
          · exact .inr h2
        · exact .inl h1
    · simp [Rx.run, hc] at hz

/-- A search that starts at a name. -/
theorem search_name {w : List Char} (hw : ∀ d ∈ w, nameChar d = true) (hne : w ≠ []) {sep : Char} (hs : sep = ',' ∨ sep = ')')
    (s : List Char) : ∃ k, search namesRe (w ++ sep :: s) = some (s, k) ∧ k 1 = w ∧ k 2 = [sep] := by
  have hn : nameChar sep = false := by rcases hs with rfl | rfl <;> decide
  have hb : ∀ d s k, nameChar d = true → (Rx.grp 2 (.alt (.chr ',') (.chr ')'))).run (d :: s) k = [] := by
    intro d s k hd
    have h1 : d ≠ ',' := fun h => by rw [h] at hd; revert hd; decide
    have h2 : d ≠ ')' := fun h => by rw [h] at hd; revert hd; decide
    simp [Rx.run, Rx.chr, h1, h2]
  have h := run_grp_plus (p := nameChar) (n := 1) hb hw hne hn s (fun _ => [])
  rw [← namesRe] at h
  refine ⟨fun i => if i = 2 then [sep] else if i = 1 then w else [], search_head ?_, by simp, by simp⟩
  rw [h]
  rcases hs with rfl | rfl <;> simp [Rx.run, Rx.chr]

/-! ### The values -/

/-- No number begins in a text without a point. -/
theorem run_float_none {e : Rx} {u r : List Char} {x : Char} (hu : '.' ∉ u) (hx : x ≠ '.') (hxs : signDigit x = false) (k : Caps) :
    ((Rx.plus signDigit).seq ((Rx.chr '.').seq e)).run (u ++ x :: r) k = [] := by
  cases u with
  | nil => simp [Rx.run, Rx.plus, hxs]
  | cons c u =>
    by_cases hc : signDigit c = true
    · simp only [Rx.run, Rx.plus, List.cons_append, hc, if_true, List.flatMap_cons, List.flatMap_nil, List.append_nil, List.flatMap_map]
      rw [List.flatMap_eq_nil_iff]
      intro z hz
      obtain ⟨u', rfl, hu'⟩ := stars_mem hxs hz
      cases u' with
      | nil => simp [run_chr_ne hx]
      | cons d u' =>
        have : d ≠ '.' := fun h => hu (by have := hu' d (by simp); rw [h] at this; simp [this])
        simp [run_chr_ne this]
    · simp [Rx.run, Rx.plus, hc]

theorem run_values_sep {sep : Char} (hs : sep = ',' ∨ sep = ')') (s : List Char) (k : Caps) :
    valuesRe.run (sep :: s) k = [(s, fun i => if i = 2 then [sep] else k i)] := by
  rcases hs with rfl | rfl <;> simp [valuesRe, Rx.run, Rx.plus, Rx.chr, signDigit, digit]

theorem run_grp (n : Nat) (a : Rx) (s : List Char) (k : Caps) :
    (Rx.grp n a).run s k = (a.run s k).map fun r => (r.1, fun i => if i = n then s.take (s.length - r.1.length) else r.2 i) := by
  rw [Rx.run]

theorem run_alt (a b : Rx) (s : List Char) (k : Caps) : (a.alt b).run s k = a.run s k ++ b.run s k := by rw [Rx.run]

/-- A search that starts at a separator. -/
theorem search_values_sep {sep : Char} (hs : sep = ',' ∨ sep = ')') (s : List Char) :
    search valuesRe (sep :: s) = some (s, fun i => if i = 2 then [sep] else []) :=
  search_head (by rw [run_values_sep hs]; rfl)

/-- A text without point and separator, before a character that is not one of a number, is skipped. -/
theorem search_values_skip {u : List Char} (hu : ∀ c ∈ u, c ≠ '.' ∧ c ≠ ',' ∧ c ≠ ')') {x : Char} (hx : x ≠ '.')
    (hxs : signDigit x = false) (r : List Char) : search valuesRe (u ++ x :: r) = search valuesRe (x :: r) := by
  induction u with
  | nil => rfl
  | cons c u ih =>
    rw [List.cons_append, search_skip, ih fun d hd => hu d (by simp [hd])]
    have h1 := run_float_none (e := .starPoss digit) (u := c :: u) (r := r) (fun h => (hu '.' h).1 rfl) hx hxs (fun _ => [])
    have hc := hu c (by simp)
    simp only [List.cons_append] at h1
    rw [valuesRe, run_alt, run_grp, h1]
    simp [Rx.run, Rx.chr, hc.2.1, hc.2.2]

/-- A search that starts at a number. -/
theorem search_values_float {a b : List Char} (ha : ∀ d ∈ a, signDigit d = true) (hne : a ≠ []) (hb : ∀ d ∈ b, digit d = true) {c : Char}
    (hc : digit c = false) (s : List Char) :
    search valuesRe (a ++ '.' :: (b ++ c :: s)) = some (c :: s, fun i => if i = 1 then a ++ '.' :: b else []) := by
  apply search_head
  have h := run_plus (b := (Rx.chr '.').seq (.starPoss digit)) (chr_of_class signDigit_dot _) ha hne signDigit_dot (b ++ c :: s)
    (fun _ => [])
  rw [run_seq_chr] at h
  have hd : (b ++ c :: s).dropWhile digit = c :: s := by
    rw [List.dropWhile_append_of_pos hb]
    simp [hc]
  have hp : (Rx.starPoss digit).run (b ++ c :: s) (fun _ => []) = [(c :: s, fun _ => [])] := by rw [Rx.run, hd]
  rw [valuesRe, run_alt, run_grp, h, hp]
  simp only [List.map_cons, List.map_nil, List.cons_append, List.head?_cons]
  congr 2
  funext i
  by_cases hi : i = 1
  · simp only [hi, if_true, List.length_cons, List.length_append]
    rw [show a.length + (b.length + (s.length + 1) + 1) - (s.length + 1) = a.length + ('.' :: b).length by simp; omega]
    rw [List.take_length_add_append, List.length_cons, List.take_succ_cons, List.take_left']
    rfl
  · simp [hi]

/-- A search for a value or a separator takes at least one character. -/
theorem search_values_lt {s rest : List Char} {what : Caps} (h : search valuesRe s = some (rest, what)) : rest.length < s.length := by
  obtain ⟨a, b, rfl, hr, -⟩ := search_sound h
  have hm := List.mem_of_head? hr
  simp only [valuesRe] at hm
  rw [Rx.run, List.mem_append] at hm
  have aux : ∀ (p : Char → Bool) (e : Rx) (r : List Char × Caps), r ∈ ((Rx.cls p).seq e).run b (fun _ => []) →
      r.1.length < b.length := by
    intro p e r h
    simp only [Rx.run, List.mem_flatMap] at h
    obtain ⟨x, hx, h⟩ := h
    cases b with
    | nil => simp [Rx.run] at hx
    | cons c b =>
      by_cases hc : p c = true
      · simp [Rx.run, hc] at hx
        subst hx
        obtain ⟨m, hm⟩ := run_suffix h
        simp at hm
        rw [hm]
        simp
        omega
      · simp [Rx.run, hc] at hx
  have hlt : rest.length < b.length := by
    rcases hm with hm | hm
    · simp only [Rx.run, List.mem_map] at hm
      obtain ⟨x, hx, e⟩ := hm
      simp only [Rx.plus, Rx.run, List.flatMap_assoc] at hx
      have := aux signDigit (.seq (.star signDigit) (.seq (.chr '.') (.starPoss digit))) x (by simpa only [Rx.run] using hx)
      have e1 : x.1 = rest := congrArg Prod.fst e
      rw [← e1]
      exact this
    · cases b with
      | nil => simp [Rx.run, Rx.chr] at hm
      | cons c b =>
        simp only [Rx.run, Rx.chr, List.flatMap_cons, List.flatMap_nil, List.append_nil, List.map_append, List.mem_append] at hm
        rcases hm with hm | hm
        · by_cases h1 : c = ','
          · simp [h1] at hm
            simp [hm.1]
          · simp [h1] at hm
        · by_cases h1 : c = ')'
          · simp [h1] at hm
            simp [hm.1]
          · simp [h1] at hm
  simp
  omega

end Verif.TrajText
