import Verif.Operators.Model
import Verif.Common.Lists

/-!
# Property C48: selecting, stacking and mixing vectors
-/
set_option linter.unusedSimpArgs false

namespace Verif.Operators

variable {F : Type}

/-- The components `m`, ..., `M - 1` of a vector. -/
def part (v : List F) (b : Int × Int) : List F := (v.drop b.1.toNat).take (b.2 - b.1).toNat

/-- The bounds describe a part of the vector. -/
def Within (v : List F) (b : Int × Int) : Prop := 0 ≤ b.1 ∧ b.1 ≤ b.2 ∧ b.2 ≤ v.length

/-- The intervals asked for by a history of commands: `selec` forgets the previous ones. -/
def asked : List SelecCmd → List (Int × Int) :=
  List.foldl (fun l c => match c with
    | .set m M => [(m, M)]
    | .add m M => l ++ [(m, M)]) []

/-- Their total length. -/
def total (l : List (Int × Int)) : Int := (l.map fun b => b.2 - b.1).sum

theorem part_length (v : List F) (b : Int × Int) (h : Within v b) : ((part v b).length : Int) = b.2 - b.1 := by
  obtain ⟨h1, h2, h3⟩ := h
  simp only [part, List.length_take, List.length_drop]
  omega

theorem segment_within (v : List F) (b : Int × Int) (h : Within v b) : segment v b.1 (b.2 - b.1) = .ok (part v b) := by
  obtain ⟨h1, h2, h3⟩ := h
  rw [segment, if_neg (by omega)]
  rfl

theorem segment_not_within (v : List F) (b : Int × Int) (h : ¬ Within v b) : segment v b.1 (b.2 - b.1) = .ub := by
  unfold Within at h
  rw [segment, if_pos (by omega)]

theorem setSegment_append (a b w : List F) (i n : Int) (hi : i = a.length) (hn : n = w.length) (hl : w.length ≤ b.length) :
    setSegment (a ++ b) i n w = .ok ((a ++ w) ++ b.drop w.length) := by
  subst hi hn
  rw [setSegment, if_neg (by simp; omega)]
  congr 1
  simp

theorem cmds_state (cmds : List SelecCmd) :
    (cmds.foldl Selecter.cmd .new) = ⟨(asked cmds).map fun b => (b.1, b.2 - b.1), total (asked cmds)⟩ := by
  induction cmds using snoc_induction with
  | nil => rfl
  | snoc l c ih =>
    rw [List.foldl_append, ih]
    cases c with
    | set m M => simp [Selecter.cmd, asked, total]
    | add m M => simp [Selecter.cmd, asked, total]

theorem selecLoop_ok (v : List F) (l : List (Int × Int)) (hl : ∀ b ∈ l, Within v b) (done rest : List F) (r : Int)
    (hr : r = done.length) (hrest : total l ≤ rest.length) :
    selecLoop v (l.map fun b => (b.1, b.2 - b.1)) r (done ++ rest) =
      .ok (r + total l, done ++ (l.map (part v)).flatten ++ rest.drop ((l.map (part v)).flatten.length)) := by
  induction l generalizing done rest r with
  | nil => simp [selecLoop, total]
  | cons b l ih =>
    have hb := hl b (by simp)
    have hp := part_length v b hb
    have hnn : 0 ≤ total l := by
      have : ∀ l : List (Int × Int), (∀ b ∈ l, Within v b) → 0 ≤ total l := by
        intro l
        induction l with
        | nil => intro _; simp [total]
        | cons c l ih =>
          intro h
          have h1 := h c (by simp)
          have h2 := ih (fun b hb => h b (by simp [hb]))
          unfold Within at h1
          simp only [total, List.map_cons, List.sum_cons] at h2 ⊢
          omega
      exact this l (fun b hb => hl b (by simp [hb]))
    have ht : total (b :: l) = (b.2 - b.1) + total l := by simp [total]
    rw [List.map_cons, selecLoop, segment_within v b hb, Outcome.bind_ok,
      setSegment_append done rest (part v b) r _ hr hp.symm (by omega), Outcome.bind_ok,
      ih (fun b hb => hl b (by simp [hb])) (done ++ part v b) (rest.drop (part v b).length) (r + (b.2 - b.1))
        (by simp; omega) (by simp; omega)]
    simp only [List.map_cons, List.flatten_cons, List.length_append, List.append_assoc, List.drop_drop, ht]
    congr 2
    omega

theorem selecLoop_ub (v : List F) (l : List (Int × Int)) (hl : ∃ b ∈ l, ¬ Within v b) (r : Int) (res : List F) :
    selecLoop v (l.map fun b => (b.1, b.2 - b.1)) r res = .ub := by
  induction l generalizing r res with
  | nil => obtain ⟨b, hb, -⟩ := hl; simp at hb
  | cons b l ih =>
    rw [List.map_cons, selecLoop]
    by_cases hb : Within v b
    · rw [segment_within v b hb, Outcome.bind_ok]
      have hl' : ∃ b ∈ l, ¬ Within v b := by
        obtain ⟨c, hc, hw⟩ := hl
        rcases List.mem_cons.mp hc with rfl | hc
        · exact absurd hb hw
        · exact ⟨c, hc, hw⟩
      unfold setSegment
      split
      · rfl
      · exact ih hl' _ _
    · rw [segment_not_within v b hb]
      rfl

/-- **C48, selection.** After any history of `selec` and `addSelec`, the output is the concatenation of the parts asked for,
in order, whatever the output buffer held; it is undefined when one of them is not inside the vector. -/
theorem C48_selec (cmds : List SelecCmd) (v : List F) :
    ((∀ b ∈ asked cmds, Within v b) → ∀ res : List F, (res.length : Int) = total (asked cmds) →
      (cmds.foldl Selecter.cmd .new).apply v res = .ok ((asked cmds).map (part v)).flatten) ∧
    ((∃ b ∈ asked cmds, ¬ Within v b) → ∀ res : List F, (cmds.foldl Selecter.cmd .new).apply v res = .ub) := by
  rw [cmds_state]
  constructor
  · intro hl res hres
    unfold Selecter.apply
    have := selecLoop_ok v (asked cmds) hl [] res 0 (by simp) (by omega)
    rw [List.nil_append] at this
    rw [if_neg (by simp only; omega)]
    simp only
    rw [this]
    simp only [Outcome.bind_ok, Int.zero_add, if_true, List.nil_append]
    have hlen : (((asked cmds).map (part v)).flatten.length : Int) = total (asked cmds) := by
      have : ∀ l : List (Int × Int), (∀ b ∈ l, Within v b) → ((l.map (part v)).flatten.length : Int) = total l := by
        intro l
        induction l with
        | nil => intro _; simp [total]
        | cons c l ih =>
          intro h
          have h1 := part_length v c (h c (by simp))
          have h2 := ih (fun b hb => h b (by simp [hb]))
          simp only [total, List.map_cons, List.flatten_cons, List.length_append, List.sum_cons] at h2 ⊢
          push_cast
          omega
      exact this _ hl
    rw [List.drop_of_length_le (by omega), List.append_nil]
  · intro hl res
    unfold Selecter.apply
    split
    · rfl
    · rw [selecLoop_ub v _ hl]
      rfl

example : (∀ b ∈ asked [.set 5 6, .set 1 3, .add 0 2, .add 4 4], Within [10, 11, 12, 13, 14] b) ∧
    ((asked [.set 5 6, .set 1 3, .add 0 2, .add 4 4]).map (part [10, 11, 12, 13, 14])).flatten = [11, 12, 10, 11] := by
  constructor
  · intro b hb
    simp [asked] at hb
    rcases hb with rfl | rfl | rfl <;> simp [Within]
  · decide

/-- **C48, component.** The component asked for; undefined outside the vector or before the index is set. -/
theorem C48_component (v : List F) :
    (∀ (k : Nat) (h : k < v.length), component (some k) v = .ok v[k]) ∧
    (∀ k : Int, k < 0 ∨ k ≥ v.length → component (some k) v = .ub) ∧ component none v = .ub := by
  refine ⟨?_, ?_, rfl⟩
  · intro k h
    simp only [component]
    rw [if_neg (by omega)]
    simp [rd, h]
  · intro k h
    simp only [component]
    split
    · rfl
    · simp only [rd]
      rw [List.getElem?_eq_none (by omega)]

theorem copyFrom_ok (v : List F) (n : Nat) (k : Nat) (h : k + n ≤ v.length) :
    copyFrom v k n = .ok ((v.drop k).take n) := by
  induction n generalizing k with
  | zero => simp [copyFrom]
  | succ n ih =>
    rw [copyFrom, if_neg (by omega)]
    have hk : k < v.length := by omega
    simp only [Int.toNat_natCast]
    rw [rd_of_lt _ _ hk, Outcome.bind_ok]
    rw [show ((k : Int) + 1) = ((k + 1 : Nat) : Int) by push_cast; rfl, ih (k + 1) (by omega)]
    simp only [Outcome.map_ok]
    congr 1
    rw [List.drop_eq_getElem_cons hk, List.take_succ_cons]

/-- **C48, stacking.** The output is the part of the first vector followed by the part of the second. -/
theorem C48_stack (b1 b2 : Int × Int) (v1 v2 : List F) (h1 : Within v1 b1) (h2 : Within v2 b2) :
    stack (some b1) (some b2) v1 v2 = .ok (part v1 b1 ++ part v2 b2) := by
  obtain ⟨m1, M1⟩ := b1
  obtain ⟨m2, M2⟩ := b2
  obtain ⟨a1, a2, a3⟩ := h1
  obtain ⟨c1, c2, c3⟩ := h2
  simp only at a1 a2 a3 c1 c2 c3
  obtain ⟨k1, rfl⟩ := Int.eq_ofNat_of_zero_le a1
  obtain ⟨k2, rfl⟩ := Int.eq_ofNat_of_zero_le c1
  simp only [stack]
  rw [if_neg (by omega)]
  have e1 := copyFrom_ok v1 (M1 - k1).toNat k1 (by omega)
  have e2 := copyFrom_ok v2 (M2 - k2).toNat k2 (by omega)
  rw [e1, Outcome.bind_ok, e2, Outcome.map_ok]
  rfl

example : Within [1, 2, 3] (1, 3) ∧ Within [4, 5] (0, 1) ∧ part [1, 2, 3] (1, 3) ++ part [4, 5] (0, 1) = [2, 3, 4] := by
  simp [Within, part]

/-- **C48, stacking needs the bounds.** Before both selections are set, or with a selection outside its vector, stacking is
undefined. -/
theorem C48_stack_undefined (b1 b2 : Option (Int × Int)) (v1 v2 : List F)
    (h : b1 = none ∨ b2 = none ∨ ∃ m M, b1 = some (m, M) ∧ (M < m ∨ (v1.length : Int) < M)) :
    stack b1 b2 v1 v2 = .ub := by
  rcases h with rfl | rfl | ⟨m, M, rfl, h⟩
  · cases b2 <;> rfl
  · cases b1 <;> rfl
  · cases b2 with
    | none => rfl
    | some b =>
      simp only [stack]
      rw [if_pos (by omega)]

/-! ### Mixing -/

/-- A segment that can be written: its input exists and has exactly the size announced, and it lies in the output. -/
def Fits (vs : List (List F)) (len : Nat) (s : MixSeg) : Prop :=
  0 ≤ s.sig ∧ s.sig < vs.length ∧ 0 ≤ s.index ∧ s.index + s.size ≤ len ∧
    (∀ w, vs[s.sig.toNat]? = some w → (w.length : Int) = s.size)

/-- Position `k` of the output belongs to the segment. -/
def MixSeg.covers (s : MixSeg) (k : Nat) : Bool := decide (s.index ≤ k ∧ (k : Int) < s.index + s.size)

/-- What position `k` should hold: the component given by the last segment that covers it, else that of the first input. -/
def mixed (idxs : List MixSeg) (vs : List (List F)) (v : List F) (k : Nat) : Option F :=
  match (idxs.filter (·.covers k)).getLast? with
  | some s => (vs[s.sig.toNat]?).bind fun w => w[k - s.index.toNat]?
  | none => v[k]?

theorem mixLoop_ok (vs : List (List F)) (idxs : List MixSeg) (v : List F) (h : ∀ s ∈ idxs, Fits vs v.length s) :
    ∃ res, mixLoop vs idxs v = .ok res ∧ res.length = v.length ∧ ∀ k, res[k]? = mixed idxs vs v k := by
  induction idxs generalizing v with
  | nil => exact ⟨v, rfl, rfl, fun k => by simp [mixed]⟩
  | cons s idxs ih =>
    obtain ⟨f1, f2, f3, f4, f5⟩ := h s (by simp)
    have hlt : s.sig.toNat < vs.length := by omega
    have hget : vs[s.sig.toNat]? = some vs[s.sig.toNat] := List.getElem?_eq_getElem hlt
    have hsz := f5 _ hget
    generalize hw : vs[s.sig.toNat] = w at hget hsz
    have hset : setSegment v s.index s.size w = .ok (v.take s.index.toNat ++ w ++ v.drop (s.index.toNat + s.size.toNat)) := by
      rw [setSegment, if_neg (by omega)]
    have hlen : (v.take s.index.toNat ++ w ++ v.drop (s.index.toNat + s.size.toNat)).length = v.length := by
      simp only [List.length_append, List.length_take, List.length_drop]
      omega
    obtain ⟨res, r1, r2, r3⟩ := ih (v.take s.index.toNat ++ w ++ v.drop (s.index.toNat + s.size.toNat)) (by
      rw [hlen]
      exact fun s' hs' => h s' (by simp [hs']))
    refine ⟨res, ?_, r2.trans hlen, ?_⟩
    · rw [mixLoop, if_neg (by omega), rd_of_lt _ _ hlt, Outcome.bind_ok, hw, hset, Outcome.bind_ok, r1]
    · intro k
      rw [r3]
      have hk : (v.take s.index.toNat ++ w ++ v.drop (s.index.toNat + s.size.toNat))[k]? =
          if s.covers k then w[k - s.index.toNat]? else v[k]? := by
        unfold MixSeg.covers
        have htl : (v.take s.index.toNat).length = s.index.toNat := by rw [List.length_take]; omega
        by_cases hc : s.index ≤ k ∧ (k : Int) < s.index + s.size
        · rw [if_pos (by simpa using hc), List.append_assoc, List.getElem?_append_right (by omega),
            List.getElem?_append_left (by omega), htl]
        · rw [if_neg (by simpa using hc)]
          by_cases hlow : k < s.index.toNat
          · rw [List.append_assoc, List.getElem?_append_left (by omega), List.getElem?_take, if_pos hlow]
          · rw [List.getElem?_append_right (by rw [List.length_append, htl]; omega), List.getElem?_drop, List.length_append,
              htl]
            congr 1
            omega
      unfold mixed
      by_cases hc : s.covers k = true
      · rw [List.filter_cons_of_pos (by simpa using hc), List.getLast?_cons]
        cases hf : (idxs.filter (·.covers k)).getLast? with
        | none =>
          simp only [hk, hc, if_true, Option.getD_none, hget, Option.bind_some]
        | some s' => simp
      · rw [List.filter_cons_of_neg (by simpa using hc)]
        cases hf : (idxs.filter (·.covers k)).getLast? with
        | none =>
          simp only [hk, hc, if_false, Bool.false_eq_true]
        | some s' => simp

/-- **C48, mixing.** When every segment fits, the output has the size of the first input; each position holds the component
of the last segment that covers it, or that of the first input when none does. -/
theorem C48_mix (idxs : List MixSeg) (v : List F) (vs : List (List F)) (h : ∀ s ∈ idxs, Fits (v :: vs) v.length s) :
    ∃ res, mix idxs (v :: vs) = .ok res ∧ res.length = v.length ∧ ∀ k, res[k]? = mixed idxs (v :: vs) v k := by
  obtain ⟨res, r⟩ := mixLoop_ok (v :: vs) idxs v h
  refine ⟨res, ?_, r.2⟩
  rw [mix, rd_of_lt _ _ (by simp), Outcome.bind_ok]
  exact r.1

example : (∀ s ∈ [MixSeg.mk 1 1 2, MixSeg.mk 2 2 1], Fits [[0, 0, 0, 0], [7, 8], [9]] 4 s) ∧
    mix [MixSeg.mk 1 1 2, MixSeg.mk 2 2 1] [[0, 0, 0, 0], [7, 8], [9]] = .ok [0, 7, 9, 0] := by
  constructor
  · intro s hs
    simp only [List.mem_cons, List.not_mem_nil, or_false] at hs
    rcases hs with rfl | rfl <;> simp [Fits]
  · decide

/-- **C48, mixing an unknown input.** A segment for an input that does not exist raises an exception, when the ones before it
fit. -/
theorem C48_mix_unknown_input (good : List MixSeg) (s : MixSeg) (more : List MixSeg) (v : List F) (vs : List (List F))
    (h : ∀ s ∈ good, Fits (v :: vs) v.length s) (hs : s.sig < 0 ∨ s.sig ≥ (v :: vs).length) :
    mix (good ++ s :: more) (v :: vs) = .throw := by
  have main : ∀ (good : List MixSeg) (u : List F), (∀ s ∈ good, Fits (v :: vs) u.length s) →
      mixLoop (v :: vs) (good ++ s :: more) u = .throw := by
    intro good
    induction good with
    | nil =>
      intro u _
      rw [List.nil_append, mixLoop, if_pos hs]
    | cons g good ih =>
      intro u hg
      obtain ⟨f1, f2, f3, f4, f5⟩ := hg g (by simp)
      have hlt : g.sig.toNat < (v :: vs).length := by omega
      have hsz := f5 _ (List.getElem?_eq_getElem hlt)
      rw [List.cons_append, mixLoop, if_neg (by omega), rd_of_lt _ _ hlt, Outcome.bind_ok, setSegment, if_neg (by omega),
        Outcome.bind_ok]
      apply ih
      intro s' hs'
      have := hg s' (by simp [hs'])
      have hl : (List.take g.index.toNat u ++ (v :: vs)[g.sig.toNat] ++ List.drop (g.index.toNat + g.size.toNat) u).length =
          u.length := by
        simp only [List.length_append, List.length_take, List.length_drop]
        omega
      rw [hl]
      exact this
  rw [mix, rd_of_lt _ _ (by simp), Outcome.bind_ok]
  exact main good v h

/-- **C48, mixing without any input.** Undefined once the first input was removed. -/
theorem C48_mix_no_input (idxs : List MixSeg) : mix idxs ([] : List (List F)) = .ub := rfl

end Verif.Operators
