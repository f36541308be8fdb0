import Verif.Reference.Model

/-!
# Properties of the reference of a feature (C102)
-/

namespace Verif.Reference

variable {F : Type} [DecidableEq F]

/-! ### The reference -/

/-- **C102.** After a reference of the class of the feature is set by name, its name is the one that is read back. -/
theorem C102_set_get {k : Kind} (hk : k ≠ .other) {kindOf : F → Kind} {pool : String → Option F} {nameOf : F → String} {f : F}
    (hp : pool (nameOf f) = some f) (hf : kindOf f = k) (s : State F) :
    ∃ s', setReferenceByName k kindOf pool s (nameOf f) = .ok s' ∧ s'.ref = some f ∧ getReferenceByName nameOf s' = nameOf f := by
  refine ⟨setReference k kindOf s (some f), by simp [setReferenceByName, hp], ?_, ?_⟩ <;>
    simp [setReference, hk, hf, getReferenceByName]

/-- **C102.** An unknown name is refused, and the feature is unchanged. -/
theorem C102_unknown (k : Kind) (kindOf : F → Kind) {pool : String → Option F} {name : String} (hp : pool name = none) (s : State F) :
    setReferenceByName k kindOf pool s name = .throw := by
  simp [setReferenceByName, hp]

/-- **C102.** A reference of another class is accepted without error, and the feature has no reference any more. -/
theorem C102_wrong_class_counterexample {k : Kind} (hk : k ≠ .other) {kindOf : F → Kind} {pool : String → Option F} {name : String} {f : F}
    (hp : pool name = some f) (hf : kindOf f ≠ k) (s : State F) (nameOf : F → String) :
    setReferenceByName k kindOf pool s name = .ok ⟨none, s.deps⟩ ∧ getReferenceByName nameOf (⟨none, s.deps⟩ : State F) = "none" := by
  simp [setReferenceByName, hp, setReference, hk, hf, getReferenceByName]

/-- **C102.** A class without reference stays without reference. -/
theorem C102_no_reference (kindOf : F → Kind) (self : F) (l : List (Option F)) :
    l.foldl (setReference .other kindOf) (State.new .other self) = State.new .other self := by
  induction l with
  | nil => rfl
  | cons x l ih =>
    have h : setReference .other kindOf (State.new .other self) x = State.new .other self := by cases x <;> simp [setReference]
    rw [List.foldl_cons, h, ih]

/-! ### The dependencies -/

theorem mem_addRef {k : Kind} {d : Deps F} {r : F} {o : Output} {s : F × Port} :
    s ∈ addRef k d r o ↔ s ∈ d o ∨ (s.1 = r ∧ (o, s.2) ∈ refPorts k) := by
  obtain ⟨f, p⟩ := s
  cases k <;> cases o <;> cases p <;> simp [addRef, refPorts, Deps.add, or_comm]

theorem mem_removeRef {k : Kind} {d : Deps F} {r : F} {o : Output} {s : F × Port} :
    s ∈ removeRef k d r o ↔ s ∈ d o ∧ ¬(s.1 = r ∧ (o, s.2) ∈ refPorts k) := by
  obtain ⟨f, p⟩ := s
  cases k <;> cases o <;> cases p <;> simp [removeRef, refPorts, Deps.remove]

/-- A history of calls of `setReference`. -/
def history (k : Kind) (kindOf : F → Kind) (s : State F) (l : List (Option F)) : State F := l.foldl (setReference k kindOf) s

/-- The current reference is among the dependencies. -/
def Linked (k : Kind) (s : State F) : Prop := ∀ r, s.ref = some r → ∀ o p, (o, p) ∈ refPorts k → (r, p) ∈ s.deps o

theorem Linked.step {k : Kind} (kindOf : F → Kind) {s : State F} (hs : Linked k s) (x : Option F) : Linked k (setReference k kindOf s x) := by
  intro r hr o p hp
  by_cases hk : k = .other
  · rw [hk] at hp
    simp [refPorts] at hp
  · cases x with
    | none =>
      simp only [setReference, hk, if_false] at hr
      cases h : s.ref <;> simp [h] at hr
    | some f =>
      simp only [setReference, hk, if_false] at hr ⊢
      by_cases hf : kindOf f = k
      · simp only [hf, if_true, Option.some.injEq] at hr ⊢
        exact mem_addRef.2 (.inr ⟨hr.symm, hp⟩)
      · simp [hf] at hr

/-- **C102.** After any history, the signals depend on the inputs of the current reference that the computation uses. -/
theorem C102_depends {k : Kind} (kindOf : F → Kind) (self : F) (l : List (Option F)) {r : F}
    (hr : (history k kindOf (State.new k self) l).ref = some r) {o : Output} {p : Port} (hp : (o, p) ∈ refPorts k) :
    (r, p) ∈ (history k kindOf (State.new k self) l).deps o := by
  have key : ∀ (l : List (Option F)) (s : State F), Linked k s → Linked k (history k kindOf s l) := by
    intro l
    induction l with
    | nil => exact fun s hs => hs
    | cons x l ih => exact fun s hs => ih _ (hs.step kindOf x)
  exact key l _ (by intro r hr; simp [State.new] at hr) r hr o p hp

/-- What the dependencies should be: those of the feature itself, and the used inputs of its reference. -/
def Exact (k : Kind) (self : F) (s : State F) : Prop :=
  ∀ o f p, (f, p) ∈ s.deps o ↔ (f = self ∧ p ∈ ownPorts k o) ∨ (s.ref = some f ∧ (o, p) ∈ refPorts k)

theorem exact_new (k : Kind) (self : F) : Exact k self (State.new k self) := by
  intro o f p
  simp only [State.new, List.mem_map, Prod.mk.injEq, reduceCtorEq, false_and, or_false]
  constructor
  · rintro ⟨a, ha, rfl, rfl⟩
    exact ⟨rfl, ha⟩
  · rintro ⟨rfl, h⟩
    exact ⟨p, h, rfl, rfl⟩

/-- The histories in which a reference is set only when there is none, and the feature is not its own reference. -/
def Disciplined (k : Kind) (kindOf : F → Kind) (self : F) : State F → List (Option F) → Prop
  | _, [] => True
  | s, x :: l => (∀ f, x = some f → f ≠ self ∧ s.ref = none) ∧ Disciplined k kindOf self (setReference k kindOf s x) l

/-- **C102.** If a reference is removed before another one is set, and the feature is not its own reference, the signals depend exactly on
the inputs of the feature and the used inputs of the current reference, after any history. -/
theorem C102_exact {k : Kind} (hk : k ≠ .other) (kindOf : F → Kind) (self : F) {l : List (Option F)}
    (hl : Disciplined k kindOf self (State.new k self) l) : Exact k self (history k kindOf (State.new k self) l) := by
  have key : ∀ (l : List (Option F)) (s : State F), Disciplined k kindOf self s l → Exact k self s → s.ref ≠ some self →
      Exact k self (history k kindOf s l) := by
    intro l
    induction l with
    | nil => exact fun s _ hs _ => hs
    | cons x l ih =>
      intro s hd hs hself
      have h1 : Exact k self (setReference k kindOf s x) ∧ (setReference k kindOf s x).ref ≠ some self := by
        cases x with
        | none =>
          simp only [setReference, hk, if_false]
          cases h : s.ref with
          | none =>
            refine ⟨?_, by simp⟩
            intro o f p
            rw [hs o f p, h]
          | some r =>
            refine ⟨?_, by simp⟩
            intro o f p
            simp only [mem_removeRef, hs o f p, h, Option.some.injEq, reduceCtorEq, false_and, or_false]
            have hr : r ≠ self := fun e => hself (by rw [h, e])
            constructor
            · rintro ⟨h1 | h1, h2⟩
              · exact h1
              · exact absurd ⟨h1.1.symm, h1.2⟩ h2
            · intro h1
              exact ⟨.inl h1, fun h2 => hr (h2.1.symm.trans h1.1)⟩
        | some f =>
          obtain ⟨hf, hn⟩ := hd.1 f rfl
          simp only [setReference, hk, if_false]
          by_cases hkf : kindOf f = k
          · simp only [hkf, if_true]
            refine ⟨?_, by simpa using hf⟩
            intro o g p
            simp only [mem_addRef, hs o g p, hn, reduceCtorEq, false_and, or_false, Option.some.injEq]
            exact or_congr_right (and_congr_left' eq_comm)
          · simp only [hkf, if_false]
            refine ⟨?_, by simp⟩
            intro o g p
            rw [hs o g p, hn]
      exact ih _ hd.2 h1.1 h1.2
  exact key l _ hl (exact_new k self) (by simp [State.new])

/-- **C102.** Setting a reference and removing it leaves the dependencies exactly as they were. -/
theorem C102_unset {k : Kind} (hk : k ≠ .other) {kindOf : F → Kind} {f : F} (hf : kindOf f = k) {s : State F}
    (hn : ∀ o p, (f, p) ∉ s.deps o) : history k kindOf s [some f, none] = ⟨none, s.deps⟩ := by
  have hfil : ∀ o p, (s.deps o).filter (fun x => decide (x ≠ (f, p))) = s.deps o := by
    intro o p
    rw [List.filter_eq_self]
    intro x hx
    simp only [ne_eq, decide_not, Bool.not_eq_true', decide_eq_false_iff_not]
    intro e
    exact hn o p (e ▸ hx)
  simp only [history, List.foldl_cons, List.foldl_nil, setReference, hk, hf, if_false, if_true]
  congr 1
  funext o
  have hfil' : ∀ p, (s.deps o).filter (fun x => !decide (x = (f, p))) = s.deps o := by
    intro p
    have := hfil o p
    simpa using this
  cases k <;> cases o <;> simp [removeRef, addRef, refPorts, Deps.remove, Deps.add, hfil']

/-- **C102.** Replacing a reference by another one and then removing it leaves the signals depending on the first one. -/
theorem C102_replaced_counterexample {k : Kind} (hk : k ≠ .other) {kindOf : F → Kind} {a b : F} (ha : kindOf a = k) (hb : kindOf b = k)
    (hab : a ≠ b) {o : Output} {p : Port} (hp : (o, p) ∈ refPorts k) (s : State F) :
    (history k kindOf s [some a, some b, none]).ref = none ∧ (a, p) ∈ (history k kindOf s [some a, some b, none]).deps o := by
  simp only [history, List.foldl_cons, List.foldl_nil, setReference, hk, ha, hb, if_false, if_true, true_and]
  rw [mem_removeRef, mem_addRef, mem_addRef]
  exact ⟨.inl (.inr ⟨rfl, hp⟩), fun h => hab h.1⟩

/-- **C102.** After a reference of a wrong class, removing the reference does not remove the dependencies of the former one. -/
theorem C102_wrong_class_stale_counterexample {k : Kind} (hk : k ≠ .other) {kindOf : F → Kind} {a b : F} (ha : kindOf a = k)
    (hb : kindOf b ≠ k) {o : Output} {p : Port} (hp : (o, p) ∈ refPorts k) (s : State F) :
    (history k kindOf s [some a, some b, none]).ref = none ∧ (a, p) ∈ (history k kindOf s [some a, some b, none]).deps o := by
  simp only [history, List.foldl_cons, List.foldl_nil, setReference, hk, ha, hb, if_false, if_true, true_and]
  exact mem_addRef.2 (.inr ⟨rfl, hp⟩)

/-- **C102.** A generic feature that was its own reference, after the removal of the reference, does not depend on its own input any
more: its error is not computed again when the input changes. -/
theorem C102_self_counterexample {kindOf : F → Kind} {self : F} (hs : kindOf self = .generic) :
    (self, .errorIN) ∈ (State.new .generic self).deps .error ∧
      (self, .errorIN) ∉ (history .generic kindOf (State.new .generic self) [some self, none]).deps .error := by
  constructor
  · simp [State.new, ownPorts]
  · simp only [history, List.foldl_cons, List.foldl_nil, setReference, hs, if_true, reduceCtorEq, if_false]
    rw [mem_removeRef]
    exact fun h => h.2 ⟨rfl, by simp [refPorts]⟩

/-! ### What the computations read -/

/-- The inputs of the reference that the computation of an output reads: FeatureGeneric::computeError
(src/feature/feature-generic.cpp:96-97), FeatureAbstract::computeErrorDot, which all classes but FeaturePoint6d use
(src/feature/feature-abstract.cpp:105-107), FeaturePoint6d (src/feature/feature-point6d.cpp:204-205, 306-307, 420-423),
FeatureVisualPoint::computeError (src/feature/feature-visual-point.cpp:152-155). -/
inductive Reads : Kind → Output → Port → Prop
  | genericError : Reads .generic .error .errorIN
  | genericErrordot : Reads .generic .errordot .errordotIN
  | point6dError : Reads .point6d .error .position
  | point6dJacobian : Reads .point6d .jacobian .position
  | point6dErrordotVelocity : Reads .point6d .errordot .velocity
  | point6dErrordotPosition : Reads .point6d .errordot .position
  | visualError : Reads .visualPoint .error .xy
  | visualErrordot : Reads .visualPoint .errordot .errordotIN
  | oneDErrordot : Reads .oneD .errordot .errordotIN
  | limitsErrordot : Reads .jointLimits .errordot .errordotIN

/-- **C102.** After any history, the error and the Jacobian of every class, and the velocity of the error of a generic feature, depend on
every input of the reference that they read. -/
theorem C102_reads {k : Kind} (kindOf : F → Kind) (self : F) (l : List (Option F)) {r : F}
    (hr : (history k kindOf (State.new k self) l).ref = some r) {o : Output} {p : Port} (hp : Reads k o p)
    (ho : o ≠ .errordot ∨ k = .generic) : (r, p) ∈ (history k kindOf (State.new k self) l).deps o := by
  refine C102_depends kindOf self l hr ?_
  cases hp <;> simp_all [refPorts]

/-- **C102.** The velocity of the error of the other classes reads an input of the reference that it does not depend on: when that input
changes, the velocity is not computed again. -/
theorem C102_errordot_counterexample {k : Kind} (hk : k = .point6d ∨ k = .visualPoint ∨ k = .oneD ∨ k = .jointLimits) {kindOf : F → Kind}
    {self r : F} (hf : kindOf r = k) (hr : r ≠ self) :
    ∃ p, Reads k .errordot p ∧ (history k kindOf (State.new k self) [some r]).ref = some r ∧
      (r, p) ∉ (history k kindOf (State.new k self) [some r]).deps .errordot := by
  have hk' : k ≠ .other := by rintro rfl; simp at hk
  have key : ∀ p, (Output.errordot, p) ∉ refPorts k → (r, p) ∉ (history k kindOf (State.new k self) [some r]).deps .errordot := by
    intro p hp h
    simp only [history, List.foldl_cons, List.foldl_nil, setReference, hk', hf, if_false, if_true, mem_addRef] at h
    rcases h with h | h
    · simp only [State.new, List.mem_map, Prod.mk.injEq] at h
      obtain ⟨a, -, e, -⟩ := h
      exact hr e.symm
    · exact hp h.2
  have href : (history k kindOf (State.new k self) [some r]).ref = some r := by
    simp [history, setReference, hk', hf]
  rcases hk with rfl | rfl | rfl | rfl
  · exact ⟨_, .point6dErrordotVelocity, href, key _ (by simp [refPorts])⟩
  · exact ⟨_, .visualErrordot, href, key _ (by simp [refPorts])⟩
  · exact ⟨_, .oneDErrordot, href, key _ (by simp [refPorts])⟩
  · exact ⟨_, .limitsErrordot, href, key _ (by simp [refPorts])⟩

/-- **C102.** No output depends on an input of the reference that it does not read. -/
theorem C102_no_more (k : Kind) {o : Output} {p : Port} (hp : (o, p) ∈ refPorts k) : Reads k o p := by
  cases k <;> simp [refPorts] at hp
  · rcases hp with ⟨rfl, rfl⟩ | ⟨rfl, rfl⟩
    · exact .genericError
    · exact .genericErrordot
  · rcases hp with ⟨rfl, rfl⟩ | ⟨rfl, rfl⟩
    · exact .point6dError
    · exact .point6dJacobian
  · obtain ⟨rfl, rfl⟩ := hp
    exact .visualError

/-- The inputs of the feature itself that the computation of an output reads, the ones of the dimension left out: the selection, which all
of them read but the ones of Feature1D (src/feature/feature-1d.cpp:63-80), FeatureGeneric (src/feature/feature-generic.cpp:79-80,
121-122), FeaturePoint6d (src/feature/feature-point6d.cpp:177-179, 198, 244, 295-296, 422, 438, 458), FeatureVisualPoint
(src/feature/feature-visual-point.cpp:82, 90-93, 131, 141, 152-155), FeatureJointLimits, through the width of the limits too
(src/feature/feature-joint-limits.cpp:93-94, 113-117, 154-158), and FeatureAbstract::computeErrorDot
(src/feature/feature-abstract.cpp:97). -/
inductive OwnReads : Kind → Output → Port → Prop
  | selection {k : Kind} {o : Output} (h : ¬(k = .oneD ∧ o ≠ .errordot)) : OwnReads k o .selec
  | genericError : OwnReads .generic .error .errorIN
  | genericJacobian : OwnReads .generic .jacobian .jacobianIN
  | point6dError : OwnReads .point6d .error .position
  | point6dJacobian : OwnReads .point6d .jacobian .position
  | point6dJq : OwnReads .point6d .jacobian .Jq
  | point6dErrordot : OwnReads .point6d .errordot .position
  | point6dErrordotError : OwnReads .point6d .errordot .errorOUT
  | visualError : OwnReads .visualPoint .error .xy
  | visualJacobian : OwnReads .visualPoint .jacobian .xy
  | visualJacobianZ : OwnReads .visualPoint .jacobian .Z
  | visualJacobianJq : OwnReads .visualPoint .jacobian .Jq
  | oneDError : OwnReads .oneD .error .errorIN
  | oneDJacobian : OwnReads .oneD .jacobian .jacobianIN
  | oneDJacobianError : OwnReads .oneD .jacobian .errorIN
  | limitsError : OwnReads .jointLimits .error .joint
  | limitsErrorUpper : OwnReads .jointLimits .error .upperJl
  | limitsErrorLower : OwnReads .jointLimits .error .lowerJl
  | limitsJacobian : OwnReads .jointLimits .jacobian .joint
  | limitsJacobianUpper : OwnReads .jointLimits .jacobian .upperJl
  | limitsJacobianLower : OwnReads .jointLimits .jacobian .lowerJl

/-- The inputs of the feature itself that the computation of an output reads without the output depending on them. -/
def Forgotten (k : Kind) (o : Output) (p : Port) : Prop :=
  (k = .oneD ∧ o = .jacobian ∧ p = .errorIN) ∨ (k = .jointLimits ∧ o = .jacobian ∧ (p = .joint ∨ p = .upperJl ∨ p = .lowerJl))

/-- The inputs of the feature itself that an output depends on without its computation reading them. -/
def Superfluous (k : Kind) (o : Output) (p : Port) : Prop :=
  (o = .errordot ∧ p = .errordotIN) ∨ (k = .point6d ∧ o = .errordot ∧ p = .velocity) ∨ (k = .visualPoint ∧ o = .error ∧ p = .Z) ∨
    (k = .oneD ∧ o ≠ .errordot ∧ p = .selec)

/-- **C102.** The inputs of its own that the outputs of a new feature depend on are the ones that their computations read, but for the
Jacobians of the sum of squares and of the joint limits, which forget some, and for a few needless ones. -/
theorem C102_own (k : Kind) (hk : k ≠ .other) (self : F) (o : Output) (p : Port) :
    (self, p) ∈ (State.new k self).deps o ↔ (OwnReads k o p ∧ ¬Forgotten k o p) ∨ Superfluous k o p := by
  have hr : OwnReads k o p ↔ (p = .selec ∧ ¬(k = .oneD ∧ o ≠ .errordot)) ∨ (k = .generic ∧ o = .error ∧ p = .errorIN) ∨
      (k = .generic ∧ o = .jacobian ∧ p = .jacobianIN) ∨ (k = .point6d ∧ o = .error ∧ p = .position) ∨
      (k = .point6d ∧ o = .jacobian ∧ (p = .position ∨ p = .Jq)) ∨ (k = .point6d ∧ o = .errordot ∧ (p = .position ∨ p = .errorOUT)) ∨
      (k = .visualPoint ∧ o = .error ∧ p = .xy) ∨ (k = .visualPoint ∧ o = .jacobian ∧ (p = .xy ∨ p = .Z ∨ p = .Jq)) ∨
      (k = .oneD ∧ o = .error ∧ p = .errorIN) ∨ (k = .oneD ∧ o = .jacobian ∧ (p = .jacobianIN ∨ p = .errorIN)) ∨
      (k = .jointLimits ∧ o = .error ∧ (p = .joint ∨ p = .upperJl ∨ p = .lowerJl)) ∨
      (k = .jointLimits ∧ o = .jacobian ∧ (p = .joint ∨ p = .upperJl ∨ p = .lowerJl)) := by
    constructor
    · rintro (_ | _) <;> simp_all
    · rintro (⟨rfl, h⟩ | ⟨rfl, rfl, rfl⟩ | ⟨rfl, rfl, rfl⟩ | ⟨rfl, rfl, rfl⟩ | ⟨rfl, rfl, rfl | rfl⟩ | ⟨rfl, rfl, rfl | rfl⟩ |
        ⟨rfl, rfl, rfl⟩ | ⟨rfl, rfl, rfl | rfl | rfl⟩ | ⟨rfl, rfl, rfl⟩ | ⟨rfl, rfl, rfl | rfl⟩ | ⟨rfl, rfl, rfl | rfl | rfl⟩ |
        ⟨rfl, rfl, rfl | rfl | rfl⟩)
      · exact .selection h
      all_goals constructor
  rw [hr]
  unfold Forgotten Superfluous State.new
  cases k <;> first | exact absurd rfl hk | (cases o <;> cases p <;> simp [ownPorts])

/-! ### A case -/

/-- Three generic features and one of another class. -/
def kinds : Fin 4 → Kind := fun i => if i = 3 then .visualPoint else .generic

/-- A disciplined history that ends with the reference 2, and its dependencies. -/
theorem C102_case : Disciplined .generic kinds 0 (State.new .generic 0) [some 1, none, some 3, some 2] ∧
    (history .generic kinds (State.new .generic 0) [some 1, none, some 3, some 2]).ref = some 2 ∧
    (history .generic kinds (State.new .generic 0) [some 1, none, some 3, some 2]).deps .error = [(2, .errorIN), (0, .errorIN), (0, .selec)] := by
  refine ⟨?_, by decide, by decide⟩
  refine ⟨?_, ?_, ?_, ?_, trivial⟩
  · rintro f ⟨⟩; decide
  · rintro f ⟨⟩
  · rintro f ⟨⟩; decide
  · rintro f ⟨⟩; decide

end Verif.Reference
