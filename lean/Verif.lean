import Verif.Flags.Props
import Verif.MultiBound.Props
import Verif.Sot.StackProps
import Verif.Sot.ControlProps
import Verif.Task.ErrorProps
import Verif.Task.JacobianProps
import Verif.Task.TaskProps
import Verif.Gain.Props
import Verif.Svd.Props
import Verif.Device.Props
import Verif.Periodic.Props
import Verif.Event.Props
import Verif.Mailbox.Props
import Verif.Fir.Props
import Verif.Causal.Props
import Verif.Memory.Props
import Verif.Euler.Props
import Verif.Gripper.Props
import Verif.Limits.Props
import Verif.Freezer.Props
import Verif.Reach.Props
import Verif.Geometry.Props
import Verif.Geometry.ConvertProps
import Verif.Clamp.Props
import Verif.Reader.Props
import Verif.JointTraj.Props
import Verif.RobotUtils.Joints
import Verif.RobotUtils.Names
import Verif.RobotUtils.Base
import Verif.RobotUtils.Tables
import Verif.Pool.Props
import Verif.Variadic.Props
import Verif.Operators.Select
import Verif.Operators.Arith
import Verif.Features.Generic
import Verif.Features.Posture
import Verif.Features.Limits
import Verif.Features.OneD
import Verif.Spatial.Visual
import Verif.Spatial.Direction
import Verif.Spatial.Lines
import Verif.Kalman.Props
import Verif.Madgwick.Props
import Verif.Admittance.Props
import Verif.StopWatch.Props
import Verif.Sequencer.Props
import Verif.Point6d.Rotation
import Verif.Point6d.Model
import Verif.Point6d.Error
import Verif.Point6d.Motion
import Verif.Point6d.RightJac
import Verif.Point6d.Jacobian
import Verif.Point6d.Examples
import Verif.Point6d.Relative
import Verif.Point6d.PoseModel
import Verif.Point6d.Pose
import Verif.Point6d.PoseSe3
import Verif.TrajText.Model
import Verif.TrajText.Lemmas
import Verif.TrajText.Props
import Verif.TrajText.Examples
import Verif.MotionPeriod.Model
import Verif.MotionPeriod.Props
import Verif.Reference.Model
import Verif.Reference.Props
import Verif.TaskConti.Model
import Verif.TaskConti.Props
import Verif.Control.Model
import Verif.Control.Props
import Verif.Timing.Model
import Verif.Timing.Props
import Verif.ParamServer.Model
import Verif.ParamServer.Props
import Verif.Loader.Model
import Verif.Loader.Props
import Verif.Differentiator.Model
import Verif.Differentiator.Props
import Verif.Tail.Model
import Verif.Tail.Props
import Verif.KernelMem.Model
import Verif.KernelMem.Props
import Verif.Homogeneous.Model
import Verif.Homogeneous.Props
import Verif.MatrixUtil.Model
import Verif.MatrixUtil.Props
import Verif.Calendar.Model
import Verif.Calendar.Props
import Verif.ThreadLoop.Model
import Verif.ThreadLoop.Props
import Verif.Posture.Model
import Verif.Posture.Props
import Verif.MetaTask.Model
import Verif.MetaTask.Props
import Verif.History.Model
import Verif.History.Props
import Verif.Errors.Model
import Verif.Errors.Props
import Verif.Debug.Model
import Verif.Debug.Props
import Verif.Texts.Model
import Verif.Texts.Props
import Verif.Depend.Model
import Verif.Depend.Props
import Verif.Depend.Entities
import Verif.Small.Model
import Verif.Small.Props
import Verif.Viewer.Model
import Verif.Viewer.Props
import Verif.PyFeature.Model
import Verif.PyFeature.Props
import Verif.Loop.Model
import Verif.Loop.Control
import Verif.Loop.DeviceStep
import Verif.Loop.Eval
import Verif.Loop.Posture
import Verif.Sot.Feasible
import Verif.Loop.Stack
import Verif.ParamServer.Tables
import Verif.TaskEdit.Model
import Verif.TaskEdit.Props
import Verif.Rounding.Model
import Verif.Rounding.Device
import Verif.Rounding.Limiter
import Verif.Rounding.Regulator
import Verif.Rounding.Filters
import Verif.Rounding.Clock
import Verif.Wiring.Model
import Verif.Wiring.Props
import Verif.Loop.Adaptive
import Verif.Loop.AdaptiveStack
import Verif.Common.SvdUnique
import Verif.Sot.Unique
import Verif.Sot.Size
import Verif.Sot.Linear
import Verif.ParamServer.Getter
import Verif.Quaternion.Model
import Verif.Quaternion.Props
import Verif.Se3.Exp
import Verif.Se3.Log
import Verif.Se3.Unique
import Verif.Se3.Jlog
import Verif.Se3.Bound
import Verif.Loop.FreeFlyer
import Verif.Device.FreeFlyer
import Verif.Loop.WholeBody
import Verif.Svd.Damped
import Verif.Se3.Turned
import Verif.Loop.BaseTask
import Verif.Loop.FreeFlyerR3
import Verif.Mailbox.Signals
import Verif.Loop.FreeFlyer6d
import Verif.Loop.Adaptive6d
import Verif.Rounding.Monotone
import Verif.Rounding.Kept
import Verif.Rounding.Gripper
import Verif.Loop.Part
import Verif.Loop.Position
import Verif.Loop.Orientation
import Verif.Loop.Moving
import Verif.Loop.Tracking
import Verif.Loop.Second
import Verif.Loop.Pd
import Verif.Loop.PdProps
import Verif.Loop.Parts
import Verif.Loop.PartsProps
import Verif.Script.Model
import Verif.Script.Props
import Verif.JointTraj.Signals
import Verif.Causal.Stability
import Verif.Fir.Stability
import Verif.Script.Features
import Verif.Memory.Follow
import Verif.Causal.Switch
