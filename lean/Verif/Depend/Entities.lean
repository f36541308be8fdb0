import Verif.Depend.Props

/-!
# The outputs of the entities that are up to date, and those that are not
-/

namespace Verif.Depend

open Verif.Features Verif.Spatial Verif.Geometry Verif.Point6d Matrix

variable {ι : Type}

/-! ### Outputs that declare all that they read -/

/-- **C120.** The errors of the generic feature of a known size, of the sum of squares, of the joint limits, of the point in an image, of the
direction, of the position and of the pose are up to date. -/
theorem C120_errors :
    (∀ size, size ≠ 0 → UpToDate (genericErrorOut (ι := ι) size)) ∧ UpToDate (oneErrorOut (ι := ι)) ∧ UpToDate (limitsErrorOut (ι := ι)) ∧
      UpToDate (limitsWidthOut (ι := ι)) ∧ UpToDate (visualErrorOut (ι := ι)) ∧ UpToDate (vectorErrorOut (ι := ι)) ∧
      (∀ fr, UpToDate (point6dErrorOut (ι := ι) fr)) ∧ UpToDate (poseErrorOut (ι := ι)) := by
  refine ⟨fun size _ => ?_, ?_, ?_, ?_, ?_, ?_, fun fr => ?_, ?_⟩ <;> rw [C120_iff] <;> intro x y h
  · simp only [genericErrorOut] at h ⊢
    rw [h .selec (by simp), h .errorIN (by simp), h .refErrorIN (by simp)]
  · simp only [oneErrorOut] at h ⊢
    rw [h .errorIN (by simp)]
  · simp only [limitsErrorOut] at h ⊢
    rw [h .selec (by simp), h .joint (by simp), h .upperJl (by simp), h .lowerJl (by simp)]
  · simp only [limitsWidthOut] at h ⊢
    rw [h .upperJl (by simp), h .lowerJl (by simp)]
  · simp only [visualErrorOut] at h ⊢
    rw [h .selec (by simp), h .xy (by simp), h .refXy (by simp)]
  · simp only [vectorErrorOut] at h ⊢
    rw [h .position (by simp), h .vector (by simp), h .vectorRef (by simp)]
  · simp only [point6dErrorOut] at h ⊢
    rw [h .selec (by simp), h .position (by simp), h .refPosition (by simp)]
  · simp only [poseErrorOut] at h ⊢
    rw [h .selec (by simp), h .oMja (by simp), h .jaMfa (by simp), h .oMjb (by simp), h .jbMfb (by simp), h .faMfbDes (by simp)]

/-- **C120.** The Jacobians of the point in an image, of the position, of the relative position and of the pose, and the velocity of the
error of the pose, are up to date. -/
theorem C120_jacobians :
    (∀ tiny, UpToDate (visualJacobianOut (ι := ι) tiny)) ∧ (∀ fr, UpToDate (point6dJacobianOut (ι := ι) fr)) ∧
      UpToDate (relativeJacobianOut (ι := ι)) ∧ UpToDate (poseJacobianOut (ι := ι)) ∧ UpToDate (poseErrordotOut (ι := ι)) := by
  refine ⟨fun tiny => ?_, fun fr => ?_, ?_, ?_, ?_⟩ <;> rw [C120_iff] <;> intro x y h
  · simp only [visualJacobianOut] at h ⊢
    rw [h .selec (by simp), h .xy (by simp), h .Z (by simp), h .Jq (by simp)]
  · simp only [point6dJacobianOut] at h ⊢
    rw [h .selec (by simp), h .position (by simp), h .refPosition (by simp), h .Jq (by simp)]
  · simp only [relativeJacobianOut] at h ⊢
    rw [h .selec (by simp), h .position (by simp), h .positionRef (by simp), h .Jq (by simp), h .JqRef (by simp)]
  · simp only [poseJacobianOut] at h ⊢
    rw [h .selec (by simp), h .oMja (by simp), h .jaMfa (by simp), h .oMjb (by simp), h .jbMfb (by simp), h .faMfbDes (by simp),
      h .jaJja (by simp), h .jbJjb (by simp)]
  · simp only [poseErrordotOut] at h ⊢
    rw [h .selec (by simp), h .oMja (by simp), h .jaMfa (by simp), h .oMjb (by simp), h .jbMfb (by simp), h .faMfbDes (by simp),
      h .faNufafbDes (by simp)]

/-- **C120.** The control of the proportional controller and its error of position are up to date. -/
theorem C120_pd : UpToDate pdControlOut ∧ UpToDate pdPositionErrorOut := by
  refine ⟨?_, ?_⟩ <;> rw [C120_iff] <;> intro x y h
  · simp only [pdControlOut] at h ⊢
    rw [h .Kp (by simp), h .Kd (by simp), h .position (by simp), h .desiredPosition (by simp), h .velocity (by simp),
      h .desiredVelocity (by simp)]
  · simp only [pdPositionErrorOut] at h ⊢
    rw [h .Kp (by simp), h .Kd (by simp), h .position (by simp), h .desiredPosition (by simp), h .velocity (by simp),
      h .desiredVelocity (by simp)]

/-- **C120.** The position of the operational point is up to date; its Jacobian is when it is the one of an end effector. -/
theorem C120_operational (o : OpPoint ℝ) :
    UpToDate (opPositionOut (ι := ι) o) ∧ (o.isEndEffector = true → UpToDate (opJacobianOut (ι := ι) o)) := by
  refine ⟨?_, fun ho => ?_⟩ <;> rw [C120_iff] <;> intro x y h
  · simp only [opPositionOut] at h ⊢
    rw [h .position (by simp)]
  · simp only [opJacobianOut] at h ⊢
    rw [h .jacobian (by simp)]
    simp [opJacobian, ho]

/-! ### Outputs that forget an input -/

/-- Inputs for the cases: all is selected, the rest is zero, empty, or the identity. -/
noncomputable def base : ∀ i, In.Val ι i
  | .selec => fun _ => true
  | .errorIN => [] | .errordotIN => [] | .refErrorIN => [] | .state => [] | .posture => [] | .postureDot => []
  | .joint => [] | .upperJl => [] | .lowerJl => [] | .xy => [] | .refXy => []
  | .jacobianIN => []
  | .Z => 0
  | .position => Pose.one | .positionRef => Pose.one | .refPosition => Pose.one | .refPositionRef => Pose.one
  | .oMja => Pose.one | .jaMfa => Pose.one | .oMjb => Pose.one | .jbMfb => Pose.one | .faMfbDes => Pose.one
  | .Jq => 0 | .JqRef => 0 | .jbJjb => 0
  | .jaJja => none
  | .vector => 0 | .vectorRef => 0
  | .lineRef => 0
  | .refVelocity => 0
  | .faNufafbDes => none

/-- **C120.** The Jacobian of the sum of squares forgets the vector. -/
theorem C120_one_counterexample : Forgets (oneJacobianOut (ι := ι)) .errorIN := by
  refine ⟨by simp [oneJacobianOut], Function.update (Function.update base .jacobianIN [[1]]) .errorIN [0], [1], ?_⟩
  simp [oneJacobianOut, oneJacobian, oneLoop, rd]

/-- **C120.** The error of the posture forgets the desired posture, and the velocity of the error forgets the desired velocity. -/
theorem C120_posture_counterexample {p : Posture ℝ} (ha : p.active = [true]) (hn : p.nb = 1) :
    Forgets (postureErrorOut (ι := ι) p) .posture ∧ Forgets (postureErrordotOut (ι := ι) p) .postureDot := by
  constructor
  · refine ⟨by simp [postureErrorOut], Function.update (Function.update base .state [0]) .posture [0], [1], ?_⟩
    simp [postureErrorOut, Posture.error, ha, hn, fillLoop, rd, wr]
  · refine ⟨by simp [postureErrordotOut], Function.update base .postureDot [0], [1], ?_⟩
    simp [postureErrordotOut, Posture.errorDot, ha, hn, fillLoop, rd, wr]

/-- **C120.** The dimension of the joint limits forgets their number, and the Jacobian forgets the limits and the number of joints. -/
theorem C120_limits_counterexample {tiny : ℝ} (ht : tiny < 1) :
    Forgets (limitsDimOut (ι := ι)) .upperJl ∧ Forgets (limitsJacobianOut (ι := ι) tiny) .upperJl ∧
      Forgets (limitsJacobianOut (ι := ι) tiny) .lowerJl ∧ Forgets (limitsJacobianOut (ι := ι) tiny) .joint := by
  refine ⟨?_, ?_, ?_, ?_⟩
  · refine ⟨by simp [limitsDimOut], Function.update base .upperJl [], [0], ?_⟩
    simp [limitsDimOut, limitsDim, countLoop, base]
  · refine ⟨by simp [limitsJacobianOut],
      Function.update (Function.update (Function.update base .joint [0]) .lowerJl [0]) .upperJl [1], [-1], ?_⟩
    simp [limitsJacobianOut, limitsJacobian, limitsWidth, widthLoop, limitsDim, countLoop, base, fillLoop, rd, wr, ht]
    norm_num
  · refine ⟨by simp [limitsJacobianOut],
      Function.update (Function.update (Function.update base .joint [0]) .upperJl [1]) .lowerJl [0], [2], ?_⟩
    simp [limitsJacobianOut, limitsJacobian, limitsWidth, widthLoop, limitsDim, countLoop, base, fillLoop, rd, wr, ht]
    norm_num [ht]
  · refine ⟨by simp [limitsJacobianOut],
      Function.update (Function.update (Function.update base .upperJl [1]) .lowerJl [0]) .joint [], [0], ?_⟩
    simp [limitsJacobianOut, limitsJacobian, limitsWidth, widthLoop, limitsDim, countLoop, base, fillLoop, rd, wr, ht]

/-- **C120.** The Jacobian of the direction forgets the direction. -/
theorem C120_vector_counterexample [Nonempty ι] : Forgets (vectorJacobianOut (ι := ι)) .vector := by
  refine ⟨by simp [vectorJacobianOut], Function.update (Function.update base .Jq (Matrix.of fun _ _ => 1)) .vector ![0, 0, 1], ![1, 0, 0], fun h => ?_⟩
  have := congrFun (congrFun h 2) (Classical.arbitrary ι)
  simp [vectorJacobianOut, vectorJacobian, base, Pose.one, skew] at this

/-- **C120.** The line, its distance to the other line and the Jacobian of the distance forget the direction; the last two forget the other
line. -/
theorem C120_line_counterexample [Nonempty ι] :
    Forgets (lineOut (ι := ι)) .vector ∧ Forgets (lineErrorOut (ι := ι)) .vector ∧ Forgets (lineErrorOut (ι := ι)) .lineRef ∧
      Forgets (lineJacobianOut (ι := ι)) .vector ∧ Forgets (lineJacobianOut (ι := ι)) .lineRef := by
  refine ⟨⟨by simp [lineOut], Function.update base .vector ![0, 1, 0], ![1, 0, 0], fun h => ?_⟩,
    ⟨by simp [lineErrorOut], Function.update (Function.update (Function.update base .position ⟨1, ![1, 0, 0]⟩) .lineRef ![0, 0, 0, 0, 0, 1])
      .vector ![0, 1, 0], ![1, 0, 0], fun h => ?_⟩,
    ⟨by simp [lineErrorOut], Function.update (Function.update (Function.update base .position ⟨1, ![1, 0, 0]⟩) .vector ![0, 1, 0])
      .lineRef ![0, 0, 0, 0, 0, 1], ![5, 0, 0, 0, 0, 1], fun h => ?_⟩,
    ⟨by simp [lineJacobianOut], Function.update (Function.update (Function.update base .Jq (Matrix.of fun r _ => Sum.elim ![1, 0, 0] 0 r))
      .lineRef ![0, 0, 0, 0, 0, 1]) .vector ![0, 1, 0], ![1, 0, 0], fun h => ?_⟩,
    ⟨by simp [lineJacobianOut], Function.update (Function.update (Function.update base .Jq (Matrix.of fun r _ => Sum.elim ![1, 0, 0] 0 r))
      .vector ![0, 1, 0]) .lineRef ![0, 0, 0, 0, 0, 1], ![0, 0, 0, 1, 0, 0], fun h => ?_⟩⟩
  · have := congrFun h 3
    simp [lineOut, lineCoordinates, base, Pose.one] at this
  · simp [lineErrorOut, lineError, lineK, lineCoordinates, base, Pose.one] at h
  · simp [lineErrorOut, lineError, lineK, lineCoordinates, base, Pose.one] at h
  · have := congrFun h (Classical.arbitrary ι)
    simp [lineJacobianOut, lineJacobian, lineDiff, lineJ, lineK, diffx0, diffy0, diffz0, lineCoordinates, base, Pose.one, vecMul, dotProduct,
      Fin.sum_univ_succ] at this
  · have := congrFun h (Classical.arbitrary ι)
    simp [lineJacobianOut, lineJacobian, lineDiff, lineJ, lineK, diffx0, diffy0, diffz0, lineCoordinates, base, Pose.one, vecMul, dotProduct,
      Fin.sum_univ_succ] at this

/-- **C120.** The velocity of the error of the position forgets the velocity of the reference. -/
theorem C120_point6d_counterexample (fr : Frame) : Forgets (point6dErrordotOut (ι := ι) fr) .refVelocity := by
  refine ⟨by simp [point6dErrordotOut], base, Sum.elim ![1, 0, 0] 0, fun h => ?_⟩
  simp only [point6dErrordotOut, computeErrordot, fillLoop, component, base, ne_eq, reduceCtorEq, not_false_eq_true,
    Function.update_of_ne, Function.update_self, if_true, Outcome.bind_ok, dimension, countLoop, List.replicate, wr,
    List.length_cons, List.length_nil, Nat.reduceAdd, Nat.reduceLT, List.set, Outcome.ok.injEq, List.cons.injEq] at h
  have := h.1
  cases fr <;> simp [errordotFull, Pose.one] at this

/-- **C120.** The error of the relative position forgets the second position of the reference. -/
theorem C120_relative_counterexample : Forgets (relativeErrorOut (ι := ι)) .refPositionRef := by
  refine ⟨by simp [relativeErrorOut], base, ⟨1, ![1, 0, 0]⟩, fun h => ?_⟩
  simp only [relativeErrorOut, relComputeError, fillLoop, component, base, ne_eq, reduceCtorEq, not_false_eq_true,
    Function.update_of_ne, Function.update_self, if_true, Outcome.bind_ok, dimension, countLoop, List.replicate, wr,
    List.length_cons, List.length_nil, Nat.reduceAdd, Nat.reduceLT, List.set, Outcome.ok.injEq, List.cons.injEq] at h
  have := h.1
  simp [relErrorFull, relError, Pose.one, Pose.inv, Pose.mul] at this

/-- **C120.** The Jacobian of an operational point that is not the one of an end effector forgets the position. -/
theorem C120_operational_counterexample [Nonempty ι] {o : OpPoint ℝ} (ho : o.isEndEffector = false)
    (hR : o.transformation.t ≠ 0) : Forgets (opJacobianOut (ι := ι) o) .position := by
  have key : (o.transformation.t 0 ≠ 0 ∨ o.transformation.t 1 ≠ 0) ∨ o.transformation.t 2 ≠ 0 := by
    by_contra hc
    push Not at hc
    exact hR (funext fun i => by fin_cases i <;> simp [hc.1.1, hc.1.2, hc.2])
  rcases key with key | key
  · refine ⟨by simp [opJacobianOut], fun | .jacobian => fun r _ => Sum.elim 0 ![0, 0, 1] r | .position => ⟨1, 0⟩,
      ⟨!![-1, 0, 0; 0, -1, 0; 0, 0, 1], 0⟩, fun h => ?_⟩
    have h0 := congrFun (congrFun h (.inl 0)) (Classical.arbitrary ι)
    have h1 := congrFun (congrFun h (.inl 1)) (Classical.arbitrary ι)
    simp [opJacobianOut, opJacobian, ho, Matrix.vecHead, Matrix.vecTail] at h0 h1
    rcases key with key | key
    · exact key (by linarith)
    · exact key (by linarith)
  · refine ⟨by simp [opJacobianOut], fun | .jacobian => fun r _ => Sum.elim 0 ![0, 1, 0] r | .position => ⟨1, 0⟩,
      ⟨!![-1, 0, 0; 0, 1, 0; 0, 0, -1], 0⟩, fun h => ?_⟩
    have h0 := congrFun (congrFun h (.inl 0)) (Classical.arbitrary ι)
    simp [opJacobianOut, opJacobian, ho, Matrix.vecHead, Matrix.vecTail] at h0
    exact key (by linarith)

/-- **C120.** The force in the frame of the world forgets the position of the sensor. -/
theorem C120_force_counterexample : Forgets wForceOut .sensorPose := by
  refine ⟨by simp [wForceOut], fun | .force => fun _ => 1 | .sensorPose => ⟨1, 0⟩, ⟨0, 0⟩, fun h => ?_⟩
  have := congrFun h (.inl 0)
  simp [wForceOut, Admittance.actForce] at this

/-- **C120.** The variance of the Kalman filter forgets the model of the measure and its noise. -/
theorem C120_kalman_counterexample {n : Type} [Fintype n] [DecidableEq n] [Nonempty n] (P : Matrix n n ℝ) :
    Forgets (varianceOut (n := n) (m := n) P) .H ∧ Forgets (varianceOut (n := n) (m := n) P) .R := by
  have two : ((1 : Matrix n n ℝ) + 1)⁻¹ = (1 / 2 : ℝ) • 1 := by
    refine Matrix.inv_eq_right_inv ?_
    rw [Matrix.mul_smul, Matrix.mul_one, ← two_smul ℝ (1 : Matrix n n ℝ), smul_smul]
    norm_num
  constructor
  · refine ⟨by simp [varianceOut], fun | .F => 0 | .Q => 1 | .H => 1 | .R => 1, 0, fun h => ?_⟩
    simp [varianceOut, Kalman.updated, Kalman.gain, Kalman.predicted, Kalman.innovation, two] at h
    have := congrFun (congrFun h (Classical.arbitrary n)) (Classical.arbitrary n)
    norm_num at this
  · refine ⟨by simp [varianceOut], fun | .F => 0 | .Q => 1 | .H => 1 | .R => 1, 0, fun h => ?_⟩
    simp [varianceOut, Kalman.updated, Kalman.gain, Kalman.predicted, Kalman.innovation, two] at h
    have := congrFun (congrFun h (Classical.arbitrary n)) (Classical.arbitrary n)
    norm_num at this

/-! ### Nothing else is forgotten -/

/-- **C120.** What the outputs above forget is all that they forget: with these inputs in their lists, they declare all that their values
depend on. -/
theorem C120_only :
    DependsOnlyOn (oneJacobianOut (ι := ι)).compute ((oneJacobianOut (ι := ι)).deps ++ [.errorIN]) ∧
      DependsOnlyOn (limitsDimOut (ι := ι)).compute ((limitsDimOut (ι := ι)).deps ++ [.upperJl]) ∧
      DependsOnlyOn (vectorJacobianOut (ι := ι)).compute ((vectorJacobianOut (ι := ι)).deps ++ [.vector]) ∧
      DependsOnlyOn (lineOut (ι := ι)).compute ((lineOut (ι := ι)).deps ++ [.vector]) ∧
      DependsOnlyOn (lineErrorOut (ι := ι)).compute ((lineErrorOut (ι := ι)).deps ++ [.vector, .lineRef]) ∧
      DependsOnlyOn (lineJacobianOut (ι := ι)).compute ((lineJacobianOut (ι := ι)).deps ++ [.vector, .lineRef]) ∧
      DependsOnlyOn (relativeErrorOut (ι := ι)).compute ((relativeErrorOut (ι := ι)).deps ++ [.refPositionRef]) ∧
      DependsOnlyOn wForceOut.compute (wForceOut.deps ++ [.sensorPose]) ∧
      (∀ p : Posture ℝ, DependsOnlyOn (postureErrorOut (ι := ι) p).compute ((postureErrorOut (ι := ι) p).deps ++ [.posture])) ∧
      (∀ p : Posture ℝ, DependsOnlyOn (postureErrordotOut (ι := ι) p).compute ((postureErrordotOut (ι := ι) p).deps ++ [.postureDot])) ∧
      (∀ tiny : ℝ, DependsOnlyOn (limitsJacobianOut (ι := ι) tiny).compute ((limitsJacobianOut (ι := ι) tiny).deps ++ [.joint, .upperJl, .lowerJl])) ∧
      (∀ fr : Frame, DependsOnlyOn (point6dErrordotOut (ι := ι) fr).compute ((point6dErrordotOut (ι := ι) fr).deps ++ [.refVelocity])) ∧
      (∀ o : OpPoint ℝ, DependsOnlyOn (opJacobianOut (ι := ι) o).compute ((opJacobianOut (ι := ι) o).deps ++ [.position])) := by
  refine ⟨?_, ?_, ?_, ?_, ?_, ?_, ?_, ?_, fun _ => ?_, fun _ => ?_, fun _ => ?_, fun _ => ?_, fun _ => ?_⟩ <;> intro x y h
  · simp only [oneJacobianOut, List.cons_append, List.nil_append] at h ⊢
    rw [h .errorIN (by simp), h .jacobianIN (by simp)]
  · simp only [limitsDimOut, List.cons_append, List.nil_append] at h ⊢
    rw [h .selec (by simp), h .upperJl (by simp)]
  · simp only [vectorJacobianOut, List.cons_append, List.nil_append] at h ⊢
    rw [h .position (by simp), h .vector (by simp), h .Jq (by simp)]
  · simp only [lineOut, List.cons_append, List.nil_append] at h ⊢
    rw [h .position (by simp), h .vector (by simp)]
  · simp only [lineErrorOut, List.cons_append, List.nil_append] at h ⊢
    rw [h .position (by simp), h .vector (by simp), h .lineRef (by simp)]
  · simp only [lineJacobianOut, List.cons_append, List.nil_append] at h ⊢
    rw [h .position (by simp), h .vector (by simp), h .lineRef (by simp), h .Jq (by simp)]
  · simp only [relativeErrorOut, List.cons_append, List.nil_append] at h ⊢
    rw [h .selec (by simp), h .position (by simp), h .positionRef (by simp), h .refPosition (by simp), h .refPositionRef (by simp)]
  · simp only [wForceOut, List.cons_append, List.nil_append] at h ⊢
    rw [h .sensorPose (by simp), h .force (by simp)]
  · simp only [postureErrorOut, List.cons_append, List.nil_append] at h ⊢
    rw [h .state (by simp), h .posture (by simp)]
  · simp only [postureErrordotOut, List.cons_append, List.nil_append] at h ⊢
    rw [h .postureDot (by simp)]
  · simp only [limitsJacobianOut, List.cons_append, List.nil_append] at h ⊢
    rw [h .selec (by simp), h .joint (by simp), h .upperJl (by simp), h .lowerJl (by simp)]
  · simp only [point6dErrordotOut, List.cons_append, List.nil_append] at h ⊢
    rw [h .selec (by simp), h .position (by simp), h .refPosition (by simp), h .refVelocity (by simp)]
  · simp only [opJacobianOut, List.cons_append, List.nil_append] at h ⊢
    rw [h .jacobian (by simp), h .position (by simp)]

/-- **C120.** So for the variance of the Kalman filter. -/
theorem C120_only_kalman {n m : Type} [Fintype n] [DecidableEq n] [Fintype m] [DecidableEq m] (P : Matrix n n ℝ) :
    DependsOnlyOn (varianceOut (n := n) (m := m) P).compute ((varianceOut (n := n) (m := m) P).deps ++ [.H, .R]) := by
  intro x y h
  simp only [varianceOut, List.cons_append, List.nil_append] at h ⊢
  rw [h .F (by simp), h .Q (by simp), h .H (by simp), h .R (by simp)]

/-! ### Cases -/

/-- A graph of three outputs of natural numbers on two inputs: the first one, twice the first output plus the second input, the sum of both
outputs; the other ones are constant. -/
def sample : Nat → Node Bool Nat Nat
  | 0 => ⟨fun x _ => x false, [false], [], []⟩
  | 1 => ⟨fun x v => 2 * v 0 + x true, [true], [0], [0]⟩
  | 2 => ⟨fun _ v => v 0 + v 1, [], [0, 1], [1, 0]⟩
  | _ + 3 => ⟨fun _ _ => 0, [], [], []⟩

/-- It meets the hypotheses of C120_graph and C120_progress, and its outputs are determined. -/
theorem C120_case_graph : Acyclic sample ∧ ReadsListed sample ∧ Complete sample ∧ (∀ k, ∀ j ∈ (sample k).nodes, j ∈ (sample k).reads) ∧
    Solves sample (fun b => if b then 5 else 3) (fun k => if k = 0 then 3 else if k = 1 then 11 else if k = 2 then 14 else 0) := by
  refine ⟨?_, ?_, ?_, ?_, ?_⟩
  · intro k
    rcases k with _ | _ | _ | k <;> simp [sample]
  · intro k x u v h
    rcases k with _ | _ | _ | k <;> simp_all [sample]
  · intro k x y u v h h'
    rcases k with _ | _ | _ | k <;> simp_all [sample]
  · intro k
    rcases k with _ | _ | _ | k <;> simp [sample]
  · intro k
    rcases k with _ | _ | _ | k <;> simp [sample]

/-- The posture 1 is asked for; the error, asked after the posture 2 is set, is still the one to 1, until the state is set. -/
theorem C120_case_posture (p : Posture ℝ) (ha : p.active = [true]) (hn : p.nb = 1) :
    (postureErrorOut (ι := Unit) p).answers (Cache.new (Function.update (Function.update base .state [5]) .posture [1]))
      [.ask, .set (· = .posture) (Function.update base .posture [2]), .ask, .set (· = .state) (Function.update base .state [6]), .ask] =
      [.ok [4], .ok [4], .ok [4]] := by
  simp [postureErrorOut, Posture.error, ha, hn, fillLoop, rd, wr, Output.answers, Output.step, Cache.new, Output.stale, merge]
  norm_num

end Verif.Depend
