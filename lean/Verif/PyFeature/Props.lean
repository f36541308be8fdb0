import Verif.PyFeature.Model
import Verif.Point6d.Relative
import Verif.Flags.Props

/-!
# C123: the features of the Python library
-/

namespace Verif.PyFeature

open Verif Matrix Verif.Geometry Verif.Features Verif.Point6d

/-- Six numbers: a translation and a rotation vector. -/
noncomputable def six (e : List ℝ) : Fin 3 ⊕ Fin 3 → ℝ :=
  Sum.elim (fun i => e.getD i.val 0) (fun i => e.getD (3 + i.val) 0)

/-- The mask of the constructor. -/
def allSix : Flags.Flags := ⟨[true, true, true, true, true, true], false⟩

theorem selec_eq : selec = .ok allSix := by decide

theorem selects_allSix (i : Nat) : selects allSix i = decide (i < 6) := by
  match i with
  | 0 => rfl
  | 1 => rfl
  | 2 => rfl
  | 3 => rfl
  | 4 => rfl
  | 5 => rfl
  | n + 6 =>
    simp only [selects, Flags.call_natCast, Flags.val, allSix]
    simp

theorem picked_allSix : picked (selects allSix) 6 = [0, 1, 2, 3, 4, 5] := by
  simp [picked, List.range, List.range.loop, selects_allSix]

theorem dimension_allSix : dimension (selects allSix) = 6 := by
  rw [dimension, countLoop_zero, picked_allSix]
  rfl

theorem fill_six (v : Fin 3 ⊕ Fin 3 → ℝ) :
    fillLoop (selects allSix) (component v) 6 0 0 (List.replicate (dimension (selects allSix)) 0) =
      .ok [v (.inl 0), v (.inl 1), v (.inl 2), v (.inr 0), v (.inr 1), v (.inr 2)] := by
  rw [fill_component _ _ _ (by simp), picked_allSix]
  simp [at6]

theorem six_list (v : Fin 3 ⊕ Fin 3 → ℝ) :
    six [v (.inl 0), v (.inl 1), v (.inl 2), v (.inr 0), v (.inr 1), v (.inr 2)] = v := by
  funext r
  rcases r with i | i <;> fin_cases i <;> rfl

/-! ### The position of a body -/

section Position
variable {S J : Type}

theorem position_init (sig : S) (j : Option J) (r : Arg S) (ref : Source S) (h : asReference r = .ok ref) :
    Position.init (.signal sig) j r = .ok ⟨.plugged sig, j, ref, .current, allSix⟩ := by
  simp [Position.init, h, asPosition, selec_eq, setFrame]

theorem position_error (p : Position S J) (hf : p.frame = .current) (hm : p.mask = allSix) (w : S → Outcome (Pose ℝ))
    (M Md : Pose ℝ) (h1 : p.position.read w = .ok M) (h2 : p.reference.read w = .ok Md) :
    ∃ e, p.error w = .ok e ∧ e.length = 6 ∧ six e = errorFull .current M (some Md) := by
  refine ⟨_, ?_, ?_, six_list (errorFull .current M (some Md))⟩
  · simp only [Position.error, h1, h2, Outcome.bind_ok, computeError, hf, hm, fill_six]
  · rfl

/-- C123. A feature made with a signal of position and a reference given as a tuple has an error of six numbers: the displacement of
the body, from where it is, that brings it to the reference. The error is zero exactly when the body is there. -/
theorem C123_position_error (sig : S) (j : Option J) (Md M : Pose ℝ) (w : S → Outcome (Pose ℝ)) (hw : w sig = .ok M)
    (hM : IsRot M.R) (hd : IsRot Md.R) :
    ∃ p e, Position.init (.signal sig) j (.tuple Md) = .ok p ∧ p.error w = .ok e ∧ e.length = 6 ∧
      M.mul (poseOf (six e)) = Md ∧ (six e = 0 ↔ M = Md) := by
  obtain ⟨e, h1, h2, h3⟩ := position_error (J := J) ⟨.plugged sig, j, .const Md, .current, allSix⟩ rfl rfl w M Md hw rfl
  refine ⟨_, e, position_init sig j _ _ rfl, h1, h2, ?_, ?_⟩
  · rw [h3]; exact (C93_error_motion M Md hM hd).1
  · rw [h3]; exact C93_error_zero .current M Md hM hd

/-- C123. Without a reference, reading the error raises an exception until one is set; the error is then the one of the reference last
set, whatever was given to the constructor. -/
theorem C123_position_reference_later (sig : S) (j : Option J) (r : Arg S) (Md M : Pose ℝ) (w : S → Outcome (Pose ℝ))
    (hw : w sig = .ok M) (hM : IsRot M.R) (hd : IsRot Md.R) (p : Position S J)
    (hp : Position.init (.signal sig) j r = .ok p) :
    (r = .none → p.error w = .throw) ∧
    ∃ e, (p.setReference Md).error w = .ok e ∧ M.mul (poseOf (six e)) = Md ∧ (six e = 0 ↔ M = Md) := by
  have hp' : p.position = .plugged sig ∧ p.frame = .current ∧ p.mask = allSix := by
    cases r with
    | none => rw [position_init sig j _ .unset rfl] at hp; cases hp; exact ⟨rfl, rfl, rfl⟩
    | tuple m => rw [position_init sig j _ (.const m) rfl] at hp; cases hp; exact ⟨rfl, rfl, rfl⟩
    | array m => simp [Position.init, asReference] at hp
    | signal s => simp [Position.init, asReference] at hp
  constructor
  · rintro rfl
    rw [position_init sig j _ .unset rfl] at hp
    cases hp
    simp [Position.error, Source.read, hw]
  · obtain ⟨e, h1, -, h3⟩ := position_error (p.setReference Md) hp'.2.1 hp'.2.2 w M Md
      (by simp [Position.setReference, hp'.1, Source.read, hw]) rfl
    refine ⟨e, h1, ?_, ?_⟩
    · rw [h3]; exact (C93_error_motion M Md hM hd).1
    · rw [h3]; exact C93_error_zero .current M Md hM hd

/-- C123. A reference given as an array of the numeric library, or as a signal, is refused by an exception, after the two features have
been made. -/
theorem C123_position_array_counterexample (a : Arg S) (j : Option J) (m : Pose ℝ) (s : S) :
    Position.init a j (.array m) = .throw ∧ Position.init a j (.signal s) = .throw :=
  ⟨rfl, rfl⟩

/-- C123. After `keep` the error is zero where the body was, and at any later time it is the displacement back to that place. -/
theorem C123_position_keep (sig : S) (j : Option J) (r : Arg S) (M M' : Pose ℝ) (w w' : S → Outcome (Pose ℝ))
    (hw : w sig = .ok M) (hw' : w' sig = .ok M') (hM : IsRot M.R) (hM' : IsRot M'.R) (p : Position S J)
    (hp : Position.init (.signal sig) j r = .ok p) :
    ∃ p' e e', p.keep w = .ok p' ∧ p'.error w = .ok e ∧ six e = 0 ∧ p'.error w' = .ok e' ∧ M'.mul (poseOf (six e')) = M := by
  have hk : p.keep w = .ok (p.setReference M) := by
    have hpos : p.position = .plugged sig := by
      cases r with
      | none => rw [position_init sig j _ .unset rfl] at hp; cases hp; rfl
      | tuple m => rw [position_init sig j _ (.const m) rfl] at hp; cases hp; rfl
      | array m => simp [Position.init, asReference] at hp
      | signal s => simp [Position.init, asReference] at hp
    simp [Position.keep, hpos, Source.read, hw, Position.setReference]
  obtain ⟨-, e, h1, -, h3⟩ := C123_position_reference_later sig j r M M w hw hM hM p hp
  obtain ⟨-, e', h4, h5, -⟩ := C123_position_reference_later sig j r M M' w' hw' hM' hM p hp
  exact ⟨_, e, e', hk, h1, h3.mpr rfl, h4, h5⟩

/-- C123. Two of the signals kept as members cannot be asked by their name. -/
theorem C123_position_signals (n : String) :
    (n ∈ positionSignals → n ∈ positionMembers) ∧
    (n ∈ positionMembers → n ∉ positionSignals → n = "velocity" ∨ n = "errordot") ∧
    "velocity" ∉ positionSignals ∧ "errordot" ∉ positionSignals := by
  refine ⟨?_, ?_, by decide, by decide⟩
  · intro h
    simp only [positionSignals, positionMembers, List.mem_cons, List.not_mem_nil, or_false] at h ⊢
    tauto
  · intro h h'
    simp only [positionSignals, positionMembers, List.mem_cons, List.not_mem_nil, or_false] at h h' ⊢
    tauto

end Position

/-! ### The position of a body relative to another one -/

section Relative
variable {S J : Type}

/-- C123. The default position is the identity. -/
theorem C123_default_position : ofRows i4 = Pose.one := by
  apply Pose.ext
  · ext i j
    fin_cases i <;> fin_cases j <;> simp [ofRows, i4, Pose.one, List.range, List.range.loop, List.replicate]
  · funext i
    fin_cases i <;> simp [ofRows, i4, Pose.one, List.range, List.range.loop, List.replicate]

/-- What an argument stands for at a time: the signal, the value given, the identity when nothing is given. -/
inductive Means (w : S → Outcome (Pose ℝ)) : Arg S → Pose ℝ → Prop
  | nothing : Means w .none Pose.one
  | signal {s m} : w s = .ok m → Means w (.signal s) m
  | tuple {m} : Means w (.tuple m) m
  | array {m} : Means w (.array m) m

theorem Means.read {w : S → Outcome (Pose ℝ)} {a : Arg S} {m : Pose ℝ} (h : Means w a m) : a.source.read w = .ok m := by
  cases h with
  | nothing => rw [Arg.source, C123_default_position]; rfl
  | signal h => exact h
  | tuple => rfl
  | array => rfl

/-- The feature the constructor makes. -/
def made (b o bd od : Arg S) (jb jo : Option J) : Relative S J :=
  ⟨o.source, b.source, od.source, bd.source, jo, jb, .current, allSix⟩

theorem relative_init (b o bd od : Arg S) (jb jo : Option J) :
    Relative.init b o bd od jb jo = .ok (made b o bd od jb jo) := by
  simp [Relative.init, selec_eq, setFrame, made]

theorem relative_error (p : Relative S J) (hm : p.mask = allSix) (w : S → Outcome (Pose ℝ)) (B O Bd Od : Pose ℝ)
    (h1 : p.positionRef.read w = .ok B) (h2 : p.position.read w = .ok O) (h3 : p.refPositionRef.read w = .ok Bd)
    (h4 : p.refPosition.read w = .ok Od) :
    ∃ e, p.error w = .ok e ∧ e.length = 6 ∧ six e = relErrorFull O B (some (.relative Od Bd)) := by
  refine ⟨_, ?_, ?_, six_list (relErrorFull O B (some (.relative Od Bd)))⟩
  · simp only [Relative.error, h1, h2, h3, h4, Outcome.bind_ok, relComputeError, hm, fill_six]
  · rfl

/-- The position of `o` in `b`. -/
noncomputable def within (b o : Pose ℝ) : Pose ℝ := b.inv.mul o

theorem inFrame_iff {B O Bd Od : Pose ℝ} (hB : IsRot B.R) (hO : IsRot O.R) (hBd : IsRot Bd.R) (hOd : IsRot Od.R) :
    inFrame O B = inFrame Od Bd ↔ within B O = within Bd Od := by
  have key : ∀ {X Y : Pose ℝ}, IsRot X.R → IsRot Y.R → (within X Y).inv = inFrame Y X := by
    intro X Y hX hY
    have hR : (X.R⁻¹ * Y.R)⁻¹ = Y.R⁻¹ * X.R := by
      rw [(hX.inv.mul hY).inv_eq, hX.inv_eq, hY.inv_eq, Matrix.transpose_mul, Matrix.transpose_transpose]
    apply Pose.ext
    · exact hR
    · simp only [within, inFrame, Pose.mul, Pose.inv, hR]
      have h : Y.R⁻¹ * X.R * X.R⁻¹ = Y.R⁻¹ := by rw [Matrix.mul_assoc, mul_inv_cancel' hX, Matrix.mul_one]
      rw [mulVec_add, mulVec_neg, mulVec_mulVec, mulVec_mulVec, h]
      abel
  have key2 : ∀ {X Y : Pose ℝ}, IsRot X.R → IsRot Y.R → (inFrame Y X).inv = within X Y := fun hX hY => key hY hX
  constructor
  · intro h
    rw [← key2 hB hO, ← key2 hBd hOd, h]
  · intro h
    rw [← key hB hO, ← key hBd hOd, h]

/-- C123. Whatever each of the four positions is given as, signal or value or nothing for the identity, the error has six numbers and
is zero exactly when the other frame is placed in the base frame as in the references. -/
theorem C123_relative_error (b o bd od : Arg S) (jb jo : Option J) (w : S → Outcome (Pose ℝ)) (B O Bd Od : Pose ℝ)
    (hb : Means w b B) (ho : Means w o O) (hbd : Means w bd Bd) (hod : Means w od Od)
    (hB : IsRot B.R) (hO : IsRot O.R) (hBd : IsRot Bd.R) (hOd : IsRot Od.R) :
    ∃ p e, Relative.init b o bd od jb jo = .ok p ∧ p.error w = .ok e ∧ e.length = 6 ∧
      (six e = 0 ↔ within B O = within Bd Od) := by
  obtain ⟨e, h1, h2, h3⟩ := relative_error (made b o bd od jb jo) rfl w B O Bd Od hb.read ho.read hbd.read hod.read
  refine ⟨_, e, relative_init b o bd od jb jo, h1, h2, ?_⟩
  rw [h3, C96_error_zero O B _ hO hB (show RefOk (some (.relative Od Bd)) from ⟨hOd, hBd⟩)]
  exact inFrame_iff hB hO hBd hOd

/-- C123. The error does not change when the two bodies move together. -/
theorem C123_relative_invariant (p : Relative S J) (b o bd od : Arg S) (jb jo : Option J)
    (hp : Relative.init b o bd od jb jo = .ok p) (w w' : S → Outcome (Pose ℝ)) (A B O Bd Od : Pose ℝ)
    (hb : Means w b B) (ho : Means w o O) (hbd : Means w bd Bd) (hod : Means w od Od)
    (hb' : Means w' b (A.mul B)) (ho' : Means w' o (A.mul O)) (hbd' : Means w' bd Bd) (hod' : Means w' od Od)
    (hA : IsRot A.R) (hO : IsRot O.R) :
    p.error w = p.error w' := by
  rw [relative_init] at hp
  cases hp
  simp only [Relative.error, made, hb.read, ho.read, hbd.read, hod.read, hb'.read, ho'.read, hbd'.read, hod'.read,
    Outcome.bind_ok, relComputeError, C96_world_invariant A O B _ hA hO]

/-- C123. When a signal of the references raises an exception, the feature does not: its error is the one of a feature that is
given no references, zero when the two frames coincide, whatever was asked. -/
theorem C123_relative_lost_reference_counterexample (b o bd od : Arg S) (jb jo : Option J) (w : S → Outcome (Pose ℝ))
    (hthrow : (∃ s, od = .signal s ∧ w s = .throw) ∨ ((∃ m, Means w od m) ∧ ∃ s, bd = .signal s ∧ w s = .throw))
    (B O : Pose ℝ) (hb : Means w b B) (ho : Means w o O) (hB : IsRot B.R) (hO : IsRot O.R) :
    ∃ p e, Relative.init b o bd od jb jo = .ok p ∧ p.error w = .ok e ∧ (six e = 0 ↔ B = O) := by
  have he : (made b o bd od jb jo).error w = relComputeError (selects allSix) O B none
      (List.replicate (dimension (selects allSix)) 0) := by
    rcases hthrow with ⟨s, rfl, hs⟩ | ⟨⟨m, hm⟩, s, rfl, hs⟩
    · have hr : (Arg.signal s).source.read w = .throw := hs
      simp only [Relative.error, made, hb.read, ho.read, Outcome.bind_ok, hr]
    · have hr : (Arg.signal s).source.read w = .throw := hs
      simp only [Relative.error, made, hb.read, ho.read, hm.read, Outcome.bind_ok, hr]
  refine ⟨_, _, relative_init b o bd od jb jo, by rw [he, relComputeError, fill_six], ?_⟩
  rw [six_list, C96_error_zero O B none hO hB trivial]
  change O.inv.mul B = Pose.one ↔ B = O
  rw [Pose.inv_mul_eq_one hO]
  exact eq_comm

/-- C123. `keep` writes the position of the other frame only: afterwards the error is zero exactly when the base frame is at its own
reference, so that it does not in general keep the relative position the bodies have. -/
theorem C123_relative_keep_counterexample (b o bd od : Arg S) (jb jo : Option J) (w : S → Outcome (Pose ℝ))
    (B O Bd : Pose ℝ) (hb : Means w b B) (ho : Means w o O) (hbd : Means w bd Bd) (hB : IsRot B.R) (hO : IsRot O.R)
    (hBd : IsRot Bd.R) :
    ∃ p p' e, Relative.init b o bd od jb jo = .ok p ∧ p.keep w = .ok p' ∧ p'.error w = .ok e ∧ (six e = 0 ↔ B = Bd) := by
  have hk : (made b o bd od jb jo).keep w = .ok { made b o bd od jb jo with refPosition := .const O } := by
    simp only [Relative.keep, made, ho.read, Outcome.bind_ok]
  obtain ⟨e, h1, -, h3⟩ := relative_error { made b o bd od jb jo with refPosition := .const O } rfl w B O Bd O hb.read ho.read
    hbd.read rfl
  refine ⟨_, _, e, relative_init b o bd od jb jo, hk, h1, ?_⟩
  rw [h3, C96_error_zero O B _ hO hB (show RefOk (some (.relative O Bd)) from ⟨hO, hBd⟩)]
  change O.inv.mul B = O.inv.mul Bd ↔ B = Bd
  constructor
  · intro h
    rw [← Pose.mul_inv_mul (B := B) hO, h, Pose.mul_inv_mul hO]
  · rintro rfl; rfl

/-- C123. The error is not the one the class announces, the inverse of the position followed by its reference: for frames that are not
turned, the translation has the opposite sign. -/
theorem C123_relative_announced_error_counterexample (b o bd od : Arg S) (jb jo : Option J) (w : S → Outcome (Pose ℝ))
    (B O Bd Od : Pose ℝ) (hb : Means w b B) (ho : Means w o O) (hbd : Means w bd Bd) (hod : Means w od Od)
    (h1 : B.R = 1) (h2 : O.R = 1) (h3 : Bd.R = 1) (h4 : Od.R = 1) :
    ∃ p e, Relative.init b o bd od jb jo = .ok p ∧ p.error w = .ok e ∧
      ∀ i, six e (.inl i) = -(((within O B).inv.mul (within Od Bd)).t i) := by
  obtain ⟨e, he, -, h6⟩ := relative_error (made b o bd od jb jo) rfl w B O Bd Od hb.read ho.read hbd.read hod.read
  refine ⟨_, e, relative_init b o bd od jb jo, he, fun i => ?_⟩
  rw [h6]
  change (relError O B (some (.relative Od Bd))).t i = _
  simp [relError, within, Pose.mul, Pose.inv, h1, h2, h3, h4]
  ring

/-- C123. The nine signals of the class can be asked by their names; those of the feature have other names. -/
theorem C123_relative_signals :
    relativeSignals.Nodup ∧ relativeSignals.length = 9 ∧ "position" ∉ relativeSignals ∧ "positionRef" ∉ relativeSignals := by
  decide

end Relative

/-- A case: a body one unit further than its reference. -/
example : ∃ p e, Position.init (S := Unit) (J := Unit) (.signal ()) none (.tuple ⟨1, ![1, 0, 0]⟩) = .ok p ∧
    p.error (fun _ => .ok ⟨1, ![2, 0, 0]⟩) = .ok e ∧ six e ≠ 0 := by
  obtain ⟨p, e, h1, h2, -, -, h5⟩ := C123_position_error (S := Unit) (J := Unit) () none ⟨1, ![1, 0, 0]⟩ ⟨1, ![2, 0, 0]⟩
    (fun _ => .ok ⟨1, ![2, 0, 0]⟩) rfl isRot_one isRot_one
  refine ⟨p, e, h1, h2, fun h => ?_⟩
  have := congrFun (congrArg Pose.t (h5.mp h)) 0
  norm_num at this

/-- A case: the references say that the other frame is one unit above the base frame. -/
example : ∃ p e, Relative.init (S := Bool) (J := Unit) (.signal true) (.signal false) .none (.tuple ⟨1, ![0, 0, 1]⟩) none none =
      .ok p ∧ p.error (fun s => .ok ⟨1, if s then ![1, 1, 1] else ![1, 1, 2]⟩) = .ok e ∧ six e = 0 := by
  obtain ⟨p, e, h1, h2, -, h4⟩ := C123_relative_error (S := Bool) (J := Unit) (.signal true) (.signal false) .none
    (.tuple ⟨1, ![0, 0, 1]⟩) none none (fun s => .ok ⟨1, if s then ![1, 1, 1] else ![1, 1, 2]⟩) ⟨1, ![1, 1, 1]⟩ ⟨1, ![1, 1, 2]⟩
    Pose.one ⟨1, ![0, 0, 1]⟩ (.signal rfl) (.signal rfl) .nothing .tuple isRot_one isRot_one isRot_one isRot_one
  refine ⟨p, e, h1, h2, h4.mpr ?_⟩
  apply Pose.ext
  · simp [within, Pose.mul, Pose.inv, Pose.one]
  · funext i
    fin_cases i <;> norm_num [within, Pose.mul, Pose.inv, Pose.one]

end Verif.PyFeature
