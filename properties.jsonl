{"id": "C01", "title": "Selection flags combine pointwise", "statement": "For two selection masks a and b, reading any index i>=0 of a&b, a|b, !a (and of the in-place forms) gives a(i) and b(i), a(i) or b(i), not a(i), even when the masks have different explicit lengths or i lies beyond both.", "quantifier": "all masks (any explicit length, any default bit), all indices i >= 0", "why_tests_cant": "The masks are unbounded in length and index; tests sample a few lengths, and the interesting case is exactly mismatched lengths with differing out-of-range defaults.", "anchors": ["src/sot/flags.cpp: Flags::operator&=, operator|=, operator!, operator()", "include/sot/core/flags.hh"]}
{"id": "C02", "title": "A mask is true iff it selects something", "statement": "Converting a mask to bool yields true exactly when some index i>=0 reads true; a mask is false exactly when it selects nothing.", "quantifier": "all masks", "why_tests_cant": "Existential over unboundedly many indices.", "anchors": ["src/sot/flags.cpp: Flags::operator bool, operator()"]}
{"id": "C03", "title": "Mask edits touch one index only", "statement": "set(i)/unset(i) on an explicit index changes the reading at i only and leaves every other index and the default; on an index beyond the explicit part they do nothing; add appends exactly one explicit entry, after which every earlier index still reads as before.", "quantifier": "all masks, all indices, all histories of add/set/unset", "why_tests_cant": "Frame property over all other indices and all histories.", "anchors": ["src/sot/flags.cpp: add, set, unset"]}
{"id": "C04", "title": "Mask text form round-trips", "statement": "Printing a mask and reading it back with operator>> yields the same explicit entries; any text of 0s, 1s and spaces is accepted with the spaces ignored; any other character is rejected with an exception.", "quantifier": "all masks and all texts", "why_tests_cant": "Universal over unbounded strings.", "anchors": ["src/sot/flags.cpp: operator<<, operator>>, Flags(const char*)"]}
{"id": "C05", "title": "A bound only answers for what was set", "statement": "A bound reads back exactly the last value written for the requested side, and raises an exception when the requested single/sup/inf value has not been set since the last switch between the single and double modes.", "quantifier": "all histories of setSingleBound/setDoubleBound/unsetDoubleBound on a bound", "why_tests_cant": "Depends on the whole history of sets, unsets and mode switches.", "anchors": ["src/task/multi-bound.cpp: MultiBound::*", "include/sot/core/multi-bound.hh"]}
{"id": "C06", "title": "Bound text form round-trips", "statement": "Printing any bound (single, double with any subset of sides set) then parsing the text restores the same mode and readable values; likewise for vectors of bounds. The text of a double bound cut before its end never gives a bound.", "quantifier": "all bounds and vectors of bounds with integer-valued numbers", "why_tests_cant": "Unbounded vectors, all combinations of set sides and all places where a text may be cut.", "anchors": ["src/task/multi-bound.cpp: operator<<, operator>>"]}
{"id": "C07", "title": "Stack edits behave as list edits", "statement": "push appends at the lowest priority, pop removes the last, remove deletes the first occurrence, up/down exchange a task with its higher/lower neighbour (no change at the ends or when absent), clear empties; all other tasks keep their relative order.", "quantifier": "all stacks and all sequences of commands", "why_tests_cant": "Universal over histories and stack sizes.", "anchors": ["src/sot/sot.cpp: Sot::push, pop, exist, remove, up, down, clear"]}
{"id": "C08", "title": "Control recomputes when any stacked task changes", "statement": "After any sequence of stack commands the control signal depends on the task and jacobian signals of exactly the tasks currently in the stack.", "quantifier": "all sequences of stack commands", "why_tests_cant": "History property; duplicates and interleavings are unbounded.", "anchors": ["src/sot/sot.cpp: push, pop, remove, clear (addDependency/removeDependency)"]}
{"id": "C09", "title": "Lower-priority tasks do not disturb higher-priority ones", "statement": "For every task accepted in the stack, the velocity J_i*u obtained at its level is unchanged by every later level of the resolution.", "quantifier": "all stacks, jacobians, references and numerical thresholds for which no singular value lies strictly between zero and the threshold", "why_tests_cant": "Linear-algebra statement over all real matrices and any number of levels.", "anchors": ["src/sot/sot.cpp: computeControlLaw, updateControl", "src/sot/memory-task-sot.cpp"]}
{"id": "C10", "title": "Feasible tasks are achieved exactly", "statement": "A level whose projected jacobian has full row rank is executed exactly: J_i*u equals the requested task velocity in the final control; otherwise the residual is orthogonal to what the level can still reach.", "quantifier": "all stacks and real inputs with nondegenerate singular values", "why_tests_cant": "Universal over real matrices.", "anchors": ["src/sot/sot.cpp: computeControlLaw, updateControl"]}
{"id": "C11", "title": "Null-space projector and initial control are honoured", "statement": "With an initial control q0 and a projector proj0, the returned control differs from q0 only inside the image of proj0; without q0 it starts from zero.", "quantifier": "all stacks and real inputs", "why_tests_cant": "Universal over matrices and stack depth.", "anchors": ["src/sot/sot.cpp: computeControlLaw"]}
{"id": "C12", "title": "Over-large increments are rejected", "statement": "A level whose increment has squared norm above the limit leaves the control unchanged, and rejecting one level does not stop lower-priority levels from being tried.", "quantifier": "all stacks, all limits", "why_tests_cant": "Depends on stack position of the rejected level.", "anchors": ["src/sot/sot.cpp: updateControl, computeControlLaw"]}
{"id": "C13", "title": "Unselected joints are masked in the jacobian", "statement": "The jacobian used for a task has column i equal to the task jacobian column when joint i is selected by the task mask, and zero otherwise.", "quantifier": "all jacobians, masks, joints", "why_tests_cant": "Universal over sizes and masks with default bit.", "anchors": ["src/sot/sot.cpp: computeJacobianActivated"]}
{"id": "C14", "title": "Task error is the concatenation of feature errors", "statement": "The task error signal equals the concatenation, in order, of the errors of the features of the task, whatever the previous content of the output buffer.", "quantifier": "all feature lists, feature dimensions and previous buffer contents", "why_tests_cant": "The buffer-growing loop depends on the previous size and on every prefix sum of dimensions.", "anchors": ["src/task/task.cpp: Task::computeError"]}
{"id": "C15", "title": "Task jacobian is the vertical stack of feature jacobians", "statement": "The task jacobian equals the rows of the feature jacobians stacked in order when all have the same column count, and an exception is raised when column counts differ, whatever the previous content of the output buffer.", "quantifier": "all feature lists, jacobian shapes and previous buffer contents", "why_tests_cant": "Same growing loop; depends on buffer history.", "anchors": ["src/task/task.cpp: Task::computeJacobian"]}
{"id": "C16", "title": "Task reference is a proportional decrease", "statement": "The task velocity has the size of the error and component i is -gain*error_i, minus the error derivative when the derivative option is on; every component is a single bound.", "quantifier": "all errors, gains, derivative options", "why_tests_cant": "Universal over sizes and values.", "anchors": ["src/task/task.cpp: computeTaskExponentialDecrease, computeErrorTimeDerivative"]}
{"id": "C17", "title": "PD task subtracts the error variation", "statement": "The PD task adds -beta*(e_t - e_{t-1}) to the proportional task when the error size is unchanged, and nothing when it changed.", "quantifier": "all error histories", "why_tests_cant": "History property over sequences of errors of varying size.", "anchors": ["src/task/task-pd.cpp"]}
{"id": "C18", "title": "Unilateral task bounds keep the position within its limits", "statement": "Any velocity between the lower and upper bound produced by the unilateral task, integrated for dt, brings the position between the lower and upper references; both sides are always set.", "quantifier": "all positions, references, dt>0 and admissible velocities", "why_tests_cant": "Universal over reals.", "anchors": ["src/task/task-unilateral.cpp"]}
{"id": "C19", "title": "Adaptive gain stays between its two limits and decreases with the error", "statement": "The adaptive gain equals the value at zero for zero error, lies between the value at zero and the value at infinity, and is antitone in the error norm when value at zero >= value at infinity and the slope is non-negative; initFromPassingPoint makes the curve pass through the given point.", "quantifier": "all real parameters and errors", "why_tests_cant": "Real-analysis statement over a continuum.", "anchors": ["src/task/gain-adaptive.cpp"]}
{"id": "C20", "title": "Hyperbolic gain stays between its two limits", "statement": "The hyperbolic gain lies strictly between the values at infinity and at zero (for their order) and is antitone in the error norm for non-negative slope; at the displacement distance it is their mean.", "quantifier": "all real parameters and errors", "why_tests_cant": "Real-analysis statement over a continuum.", "anchors": ["src/task/gain-hyperbolic.cpp"]}
{"id": "C21", "title": "Pseudo-inverse obeys the Penrose equations", "statement": "The generalised inverse of any matrix obtained from a valid decomposition satisfies the four Penrose equations when no nonzero singular value is below the threshold; the damped inverse equals the transpose times the inverse of (A A^T + lambda^2 I).", "quantifier": "all real matrices and valid decompositions", "why_tests_cant": "Linear algebra over all matrices.", "anchors": ["src/matrix/matrix-svd.cpp: pseudoInverse, dampedInverse"]}
{"id": "C22", "title": "Device positions stay within bounds", "statement": "With sanity checks on and consistent bounds, after any step of a velocity- or acceleration-controlled device every actuated joint position lies between its lower and upper bound.", "quantifier": "all control sequences, states and bounds with lower<=upper", "why_tests_cant": "Invariant over all executions.", "anchors": ["src/tools/device.cpp: Device::integrate, saturateBounds, increment"]}
{"id": "C23", "title": "Device integration is the Euler step", "statement": "In velocity mode the actuated positions advance by dt*control; in acceleration mode velocity advances by dt*control and the position by dt*v + dt^2/2*control (before saturation); in position mode the state is the control.", "quantifier": "all states, controls, dt", "why_tests_cant": "Universal over reals and vector sizes.", "anchors": ["src/tools/device.cpp: Device::integrate"]}
{"id": "C24", "title": "NaN controls never move the robot", "statement": "With sanity checks on, a control containing NaN leaves the device state unchanged.", "quantifier": "all states and all NaN-containing controls", "why_tests_cant": "Universal over positions of the NaN.", "anchors": ["src/tools/device.cpp: Device::integrate"]}
{"id": "C25", "title": "Device bounds and checks are accepted atomically", "statement": "Setting position/velocity/torque bounds or the sanity check either succeeds completely or raises an exception and leaves the device unchanged; a successful setting leaves the bounds sized as the device requires.", "quantifier": "all device states and arguments", "why_tests_cant": "Universal over states and histories.", "anchors": ["src/tools/device.cpp: setPositionBounds, setVelocityBounds, setTorqueBounds, setSanityCheck"]}
{"id": "C26", "title": "Device steps never read out of range", "statement": "With sanity checks on and bounds set for the current state size, no device step reads outside the bound vectors.", "quantifier": "all command histories", "why_tests_cant": "Depends on the history of size and bound changes.", "anchors": ["src/tools/device.cpp: setStateSize, integrate, increment"]}
{"id": "C27", "title": "Periodic calls run at their period and in name order", "statement": "At tick t exactly the registered calls whose downsampling factor divides t are executed, each once, in name order; adding on a used name replaces its call, removing an unknown name changes nothing, clear removes all.", "quantifier": "all registration histories, ticks t >= 0 and factors > 0", "why_tests_cant": "Universal over histories and ticks.", "anchors": ["src/tools/periodic-call.cpp", "include/sot/core/periodic-call.hh"]}
{"id": "C28", "title": "Event triggers", "statement": "With repetition disabled, the event triggers exactly on false-to-true transitions of its condition; with repetition N it triggers again only while the condition has been true for at least N ticks, never when the condition is false.", "quantifier": "all condition histories and N fixed", "why_tests_cant": "Property of unbounded histories.", "anchors": ["include/sot/core/event.hh", "src/tools/event.cpp"]}
{"id": "C29", "title": "Mailbox delivers the latest complete message", "statement": "Under any interleaving of writers and readers, a read returns a message that was posted as a whole (never a mix) and never goes back to an older message than one read before; without contention it returns the latest posted message.", "quantifier": "all interleavings of posts and reads", "why_tests_cant": "Schedules are unbounded; tests see a few.", "anchors": ["include/sot/core/mailbox.hxx"]}
{"id": "C30", "title": "FIR filter output is the convolution", "statement": "After n samples the filter output is sum over i<min(order,n) of c_i*s(n-i).", "quantifier": "all coefficient lists and sample histories", "why_tests_cant": "Unbounded histories and circular-buffer wrap-around.", "anchors": ["include/sot/core/fir-filter.hh: FIRFilter, circular_buffer"]}
{"id": "C31", "title": "Circular buffer holds the most recent samples", "statement": "After any history of pushes into a buffer of capacity N>0, index i reads the sample pushed i steps ago for every i < min(N, number of pushes).", "quantifier": "all capacities and push histories", "why_tests_cant": "Wrap-around arithmetic for unbounded histories.", "anchors": ["include/sot/core/fir-filter.hh: detail::circular_buffer"]}
{"id": "C32", "title": "Causal filter obeys its difference equation", "statement": "Each output y of the causal filter satisfies sum_j a_j y(t-j) = sum_j b_j u(t-j); a constant input gives the steady-state output x*sum(b)/sum(a) with zero derivatives from the first sample on.", "quantifier": "all coefficient lists with at least two denominators, all input histories", "why_tests_cant": "Rolling-buffer indices over unbounded time.", "anchors": ["src/filters/causal-filter.cpp: CausalFilter::get_x_dx_ddx, switch_filter"]}
{"id": "C33", "title": "Exponential moving average is a convex combination", "statement": "With alpha in [0,1] the average after any inputs is alpha^n*0 + sum (1-alpha) alpha^(n-k) u_k, and stays within any interval containing zero and all inputs.", "quantifier": "all input histories", "why_tests_cant": "Unbounded histories.", "anchors": ["src/tools/exp-moving-avg.cpp"]}
{"id": "C34", "title": "Derivator and integrator formulas", "statement": "The derivator outputs (current - previous)/dt; the explicit Euler integrator output satisfies its difference equation; initialising the integrator makes the stored history equal to the current input.", "quantifier": "all input histories and coefficient lists", "why_tests_cant": "Unbounded histories.", "anchors": ["include/sot/core/derivator.hh", "include/sot/core/integrator-euler.hh", "include/sot/core/integrator-abstract.hh"]}
{"id": "C35", "title": "Gripper speed reduction", "statement": "The gripper torque-limited velocity is the desired velocity scaled by a factor in [0,1], the same sign, and the factor decreases towards zero while the torque exceeds its limit and recovers otherwise.", "quantifier": "all torque histories", "why_tests_cant": "Unbounded histories.", "anchors": ["src/tools/gripper-control.cpp"]}
{"id": "C36", "title": "Workspace clamp gives complementary weights and a reference inside its box", "statement": "Whatever the pose of the hand and of the reference frame, at every evaluation the first weight keeps the three translations and nothing else, the second weight keeps the three rotations and nothing else, and the reference pose is rigid and located at the centre of the box, hence inside its bounds; its yaw stays in its range as long as the point is between the bounds.", "quantifier": "all poses and bounds with lower<=upper", "why_tests_cant": "Universal over reals.", "anchors": ["src/tools/clamp-workspace.cpp"]}
{"id": "C37", "title": "Neck limitation enforces the linear tilt/pan limits", "statement": "The output satisfies the two linear constraints relating tilt to pan, and is unchanged when the input already satisfies them.", "quantifier": "all joint vectors and coefficients", "why_tests_cant": "Universal over reals.", "anchors": ["src/tools/neck-limitation.cpp"]}
{"id": "C38", "title": "Joint limitator zeroes dangerous joint velocities only", "statement": "The output velocity of each limited joint is either the input velocity, if the joint predicted position stays strictly inside its limits, or zero; other joints pass through.", "quantifier": "all joint vectors and bounds", "why_tests_cant": "Universal over reals and vector sizes.", "anchors": ["src/tools/joint-limitator.cpp"]}
{"id": "C39", "title": "CoM freezer freezes while no walk is in process", "statement": "While the pattern generator is in process the reported CoM is the reference CoM; when it stops, the report keeps following the reference for one second (200 ticks) and then stays at its last value until the generator is in process again.", "quantifier": "all histories of the pattern-generator flag", "why_tests_cant": "Unbounded histories.", "anchors": ["src/tools/com-freezer.cpp"]}
{"id": "C40", "title": "Smooth reach interpolates and stops at its goal", "statement": "The smooth reach output goes from the start to the goal monotonically along the straight line within the requested duration and stays at the goal afterwards, for the three documented smoothing modes.", "quantifier": "all starts, goals, durations and ticks", "why_tests_cant": "Universal over reals and time.", "anchors": ["src/tools/smooth-reach.cpp"]}
{"id": "C41", "title": "Trace reader replays rows in order", "statement": "Successive vector reads return the selected columns of successive rows of the loaded file; after the last row the last row is kept, rewind restarts; matrix reads are row-major.", "quantifier": "all files, selections and read histories", "why_tests_cant": "Unbounded histories.", "anchors": ["src/traces/reader.cpp"]}
{"id": "C42", "title": "Joint trajectories are played in arrival order", "statement": "Points of a trajectory are emitted in order, one per step, trajectories are played in the order received, no index outside the current trajectory is ever read and the last point is held.", "quantifier": "all histories of received trajectories and steps", "why_tests_cant": "Unbounded histories.", "anchors": ["src/tools/joint-trajectory-entity.cpp"]}
{"id": "C43", "title": "Joint reordering between conventions is invertible", "statement": "Converting joint vectors from one ordering to the other and back returns the same vector when the mapping is a permutation, and an out-of-size mapping is rejected.", "quantifier": "all joint vectors and mappings", "why_tests_cant": "Universal over permutations of any size.", "anchors": ["src/tools/robot-utils.cpp: joints_urdf_to_sot, joints_sot_to_urdf"]}
{"id": "C44", "title": "Joint name and id tables are mutually inverse", "statement": "After any registrations of distinct names and ids, looking up the id of a name and the name of an id are inverse of each other; unknown entries are reported.", "quantifier": "all registration histories", "why_tests_cant": "Unbounded histories.", "anchors": ["src/tools/robot-utils.cpp: set_name_to_id, create_id_to_name_map, get_id_from_name, get_name_from_id"]}
{"id": "C45", "title": "Entity pool", "statement": "A feature or task registered under a name is returned for that name for ever after; registering a different entity under a used name and looking up an unknown name raise exceptions.", "quantifier": "all registration histories", "why_tests_cant": "Unbounded histories.", "anchors": ["src/factory/pool.cpp"]}
{"id": "C46", "title": "Variadic inputs keep names consistent with positions", "statement": "Growing and shrinking the number of inputs keeps exactly the requested count, inputs that survive are untouched and every position holds a valid input.", "quantifier": "all histories of add/remove/setSignalNumber", "why_tests_cant": "Unbounded histories.", "anchors": ["include/sot/core/variadic-op.hh"]}
{"id": "C47", "title": "Switch forwards the selected input only", "statement": "The switch output equals the input at the selected index and an index out of range raises an exception; selection by boolean picks 0 for false and 1 for true.", "quantifier": "all input counts and selections", "why_tests_cant": "Universal over sizes.", "anchors": ["include/sot/core/switch.hh"]}
{"id": "C48", "title": "Vector operators: selection, stacking, mixing", "statement": "Vector selection returns the concatenation of the requested segments; stacking concatenates the two selections; mixing overwrites exactly the requested segments; twist and pose conversions are inverse of each other.", "quantifier": "all vectors, segment lists", "why_tests_cant": "Universal over sizes.", "anchors": ["src/matrix/operator.hh"]}
{"id": "C49", "title": "Variadic arithmetic operators", "statement": "The variadic adder returns the coefficient-weighted sum of its inputs, the multiplier the ordered product, the boolean operator the conjunction/disjunction of all inputs.", "quantifier": "all input lists", "why_tests_cant": "Unbounded arity.", "anchors": ["src/matrix/operator.hh: AdderVariadic, Multiplier, BoolOp"]}
{"id": "C50", "title": "Generic feature selects components consistently", "statement": "The error and the jacobian rows of a generic feature are those of the selected components, in the same order and number as announced by its dimension.", "quantifier": "all errors, jacobians and masks", "why_tests_cant": "Universal over sizes and masks.", "anchors": ["src/feature/feature-generic.cpp", "src/feature/feature-abstract.cpp"]}
{"id": "C51", "title": "Posture feature jacobian selects the active joints", "statement": "After any sequence of joint (de)activations, the error lists state-posture for exactly the active joints in index order and the jacobian is the corresponding selection matrix.", "quantifier": "all histories of selectDof", "why_tests_cant": "Unbounded histories.", "anchors": ["src/feature/feature-posture.cpp"]}
{"id": "C52", "title": "Joint-limit feature is normalised in [-1,1]", "statement": "For positions inside the limits the error of each selected joint lies in [-1,1], is -1 and 1 exactly at the limits, and the jacobian is its derivative.", "quantifier": "all positions and limits", "why_tests_cant": "Universal over reals.", "anchors": ["src/feature/feature-joint-limits.cpp"]}
{"id": "C53", "title": "1-D feature jacobian is the gradient of its error", "statement": "The error is half the squared norm of the input error and the jacobian is its exact derivative.", "quantifier": "all errors and jacobians", "why_tests_cant": "Universal over reals and sizes.", "anchors": ["src/feature/feature-1d.cpp"]}
{"id": "C54", "title": "Visual point interaction matrix", "statement": "The interaction matrix of the visual point feature is the derivative of the projected coordinates under camera motion, and points behind or on the camera plane are rejected.", "quantifier": "all points in front of the camera and all twists", "why_tests_cant": "Real-analysis statement.", "anchors": ["src/feature/feature-visual-point.cpp"]}
{"id": "C55", "title": "Twist matrices compose", "statement": "The twist transformation of a product of poses is the product of the twist transformations, and that of the inverse is the inverse.", "quantifier": "all rigid poses", "why_tests_cant": "Universal over SE(3).", "anchors": ["include/sot/core/matrix-geometry.hh: buildFrom", "src/matrix/operator.hh: HomoToTwist, InverserTwist"]}
{"id": "C56", "title": "Operational point modifier", "statement": "Moving the operational point by a fixed transform composes poses and yields the jacobian giving the velocity of the new point for every joint velocity.", "quantifier": "all poses, jacobians, velocities", "why_tests_cant": "Universal over SE(3).", "anchors": ["src/math/op-point-modifier.cpp"]}
{"id": "C57", "title": "Rotation from Euler angles is a rotation", "statement": "The matrix built from any axis list and angles is orthogonal with determinant one.", "quantifier": "all axis lists and angles", "why_tests_cant": "Unbounded lists of angles.", "anchors": ["src/matrix/vector-to-rotation.cpp"]}
{"id": "C58", "title": "Kalman covariance stays symmetric positive semi-definite", "statement": "From a symmetric positive semi-definite initial covariance, every update keeps the covariance symmetric positive semi-definite and equal to the Joseph form.", "quantifier": "all model and measurement histories with R positive definite and Q positive semi-definite", "why_tests_cant": "Invariant over unbounded histories and sizes.", "anchors": ["src/tools/kalman.cpp"]}
{"id": "C59", "title": "AHRS quaternion stays unit", "statement": "The orientation quaternion remains of unit norm after any sequence of IMU measurements and never divides by zero while beta*dt<1.", "quantifier": "all measurement histories", "why_tests_cant": "Invariant over unbounded histories.", "anchors": ["src/filters/madgwickahrs.cpp"]}
{"id": "C60", "title": "Admittance control saturates its velocity", "statement": "After any step the commanded operational velocity stays within the saturation vector component-wise when it is non-negative.", "quantifier": "all force histories", "why_tests_cant": "Invariant over unbounded histories.", "anchors": ["src/control/admittance-control-op-point.cpp"]}
{"id": "C61", "title": "Stopwatch statistics are consistent", "statement": "After any sequence of starts and stops, the total equals the sum of recorded lapses, the last is the last lapse, min<=last<=max and the count is the number of stops.", "quantifier": "all histories and clock readings", "why_tests_cant": "Unbounded histories.", "anchors": ["src/utils/stop-watch.cpp"]}
{"id": "C62", "title": "Sequencer runs every event due exactly at its tick", "statement": "Each registered event is executed when the relative tick equals its trigger time, in insertion order, and not otherwise.", "quantifier": "all schedules and tick histories", "why_tests_cant": "Unbounded histories.", "anchors": ["src/tools/sequencer.cpp"]}
{"id": "C63", "title": "The control law is memory safe", "statement": "Resolving a stack never reads or writes outside a buffer, provided the memories already allocated for the tasks are at least as large as the tasks, the projector has at most as many columns as joints and the posture acceleration is not in play; and it returns a control whenever all references are single bounds.", "quantifier": "all stacks, jacobians, masks, references, projectors and histories of task sizes", "why_tests_cant": "Buffer sizes depend on an unbounded history of earlier iterations.", "anchors": ["src/sot/sot.cpp: computeControlLaw, getMemory, updateControl", "src/sot/memory-task-sot.cpp"]}
{"id": "C64", "title": "Checked devices respect their command limits", "statement": "With sanity checks on, as the header documents: in velocity mode the applied velocity, in acceleration mode the velocity, and in position mode the position are brought within their bounds.", "quantifier": "all modes, bounds, states and controls", "why_tests_cant": "Universal over states, controls and modes.", "anchors": ["include/sot/core/device.hh: integrate", "src/tools/device.cpp: Device::integrate"]}
{"id": "C65", "title": "Setting the root places the free-flyer", "statement": "The command that sets the root pose makes the first six state values represent that pose.", "quantifier": "all device states and poses", "why_tests_cant": "Universal over states and poses.", "anchors": ["src/tools/device.cpp: Device::setRoot"]}
{"id": "C66", "title": "A change of filter starts from the latest input", "statement": "After a change of coefficients the filter behaves as a new filter whose past inputs all equal the latest input; in particular at rest the output is at once the steady output of the new coefficients.", "quantifier": "all filters, input histories and changes", "why_tests_cant": "Unbounded histories and circular-buffer positions.", "anchors": ["src/filters/causal-filter.cpp: CausalFilter::switch_filter"]}
{"id": "C67", "title": "An integrator initialised at an equilibrium stays there", "statement": "Initialised while the input is at an equilibrium of the differential equation, the Euler integrator outputs this value as long as the input keeps it.", "quantifier": "all coefficient lists and equilibrium inputs", "why_tests_cant": "Universal over orders, coefficients and durations.", "anchors": ["include/sot/core/integrator-euler.hh: initialize, integrate"]}
{"id": "C68", "title": "Gradient ascent accumulates its steps", "statement": "The output is the sum over the history of learning rate times gradient, starting from zero.", "quantifier": "all histories of rates and gradients of one size", "why_tests_cant": "Unbounded histories.", "anchors": ["src/tools/gradient-ascent.cpp: GradientAscent::update"]}
{"id": "C69", "title": "A latch holds its last command", "statement": "The latch output is the last of turnOn and turnOff (as command or as evaluated signal), false before any, and reading it changes nothing.", "quantifier": "all histories of commands and evaluations", "why_tests_cant": "Unbounded histories.", "anchors": ["include/sot/core/latch.hh"]}
{"id": "C70", "title": "Quaternion operators compose rotations", "statement": "A unit quaternion converts to a rotation matrix; the product of quaternions converts to the product of the matrices and keeps the norm multiplicative; the inverse operator gives the inverse rotation for unit quaternions.", "quantifier": "all quaternions with real components (unit ones where stated)", "why_tests_cant": "The set of quaternions is a continuum; tests sample a few.", "anchors": ["src/matrix/operator.hh: InverserQuaternion, QuaternionToMatrix", "src/matrix/operator.cpp: Multiply_of_quaternion"]}
{"id": "C71", "title": "Roll-pitch-yaw and axis-angle poses describe the intended rigid motion", "statement": "The pose built from a translation and roll, pitch, yaw angles is rigid, carries the translation unchanged and rotates by roll about x, then pitch about y, then yaw about z of the fixed frame; the pose built from a rotation vector rotates by its norm about its direction, and is the identity rotation for the null vector.", "quantifier": "all six-dimensional vectors", "why_tests_cant": "Angles range over the reals, including singular configurations.", "anchors": ["src/matrix/operator.hh: RPYToMatrix, PoseRollPitchYawToMatrixHomo, PoseUThetaToMatrixHomo"]}
{"id": "C72", "title": "Vector forms of a pose and of an antisymmetric matrix lose nothing", "statement": "Converting a 12-dimensional vector to a pose and back, or a pose to a vector and back, gives the starting value; the conversion of an antisymmetric matrix to a vector gives the vector whose cross product the matrix is.", "quantifier": "all poses, all 12-vectors, all 3-vectors", "why_tests_cant": "Universal statement over real components.", "anchors": ["src/matrix/operator.hh: SE3VectorToMatrixHomo, MatrixHomoToSE3Vector, SkewSymToVector"]}
{"id": "C73", "title": "Velocities survive the conversion between the two joint conventions", "statement": "Converting a velocity from one convention to the other and back gives the velocity back, for any configuration with a unit quaternion and any bijective joint mapping; the linear and angular velocity of the base are those of the same motion seen in the other frame.", "quantifier": "all joint mappings, configurations and velocities, any number of joints", "why_tests_cant": "Every permutation of every size and every real orientation.", "anchors": ["src/tools/robot-utils.cpp: velocity_urdf_to_sot, velocity_sot_to_urdf"]}
{"id": "C74", "title": "Base poses survive the conversion between quaternion and roll-pitch-yaw", "statement": "Converting a base pose from quaternion to roll-pitch-yaw and back gives a pose with the same position and orientation, and converting angles to a quaternion and back gives the angles back for pitch strictly between -90 and 90 degrees; the whole configuration conversion reports failure when there is no joint mapping.", "quantifier": "all unit quaternions, all angles", "why_tests_cant": "The orientation ranges over a continuum and the interesting cases are next to the singularity.", "anchors": ["src/tools/robot-utils.cpp: base_se3_to_sot, base_urdf_to_sot, base_sot_to_urdf, config_urdf_to_sot, config_sot_to_urdf"]}
{"id": "C75", "title": "Mimic joints are the joints that contain a mimic element", "statement": "For a robot description in which every joint has a name attribute, the mimic joints reported are the names of the joints that contain a mimic element, in the order of the document.", "quantifier": "all description trees of any size and depth", "why_tests_cant": "Trees of any shape and depth.", "anchors": ["src/tools/robot-utils.cpp: ExtractJointMimics"]}
{"id": "C76", "title": "A robot is created once per name and found for ever after", "statement": "Creating a robot gives a new object exactly the first time its name is used; looking the name up later gives that object whatever else was created; different names give different objects; the list of robots holds each name once.", "quantifier": "all histories of creations", "why_tests_cant": "Unbounded histories.", "anchors": ["src/tools/robot-utils.cpp: createRobotUtil, getRobotUtil, isNameInRobotUtil, getListOfRobots"]}
{"id": "C77", "title": "Joint limits and force sensor identifiers are those set last", "statement": "The limits returned for a joint are the last ones set for it, zero when none were set; the identifier of each hand and foot sensor is the last one registered under its short name.", "quantifier": "all histories of settings", "why_tests_cant": "Unbounded histories.", "anchors": ["src/tools/robot-utils.cpp: set_joint_limits_for_id, get_joint_limits_from_id, ForceUtil::set_name_to_force_id"]}
{"id": "C78", "title": "The graph file is named after the file", "statement": "Writing the graph of the pool to a file names the graph after the file, without its directory and its extension, whatever the path.", "quantifier": "all file paths", "why_tests_cant": "Paths of any shape, with and without directories and dots.", "anchors": ["src/factory/pool.cpp: writeGraph"]}
{"id": "C79", "title": "Comparison and weighted sum operators", "statement": "The comparison operator says whether the first vector is less (or, when configured so, less or equal) than the second in every component (or, when configured so, in at least one); the weighted sum is the sum of its two inputs multiplied by the two gains once these are set.", "quantifier": "all vectors, configurations and gains", "why_tests_cant": "Universal over sizes and values.", "anchors": ["src/matrix/operator.hh: MatrixComparison, WeightedAdder"]}
{"id": "C80", "title": "Temporal convolution", "statement": "At every recomputation the output of the temporal convolution is, component by component, the sum over the most recent inputs of the input times the coefficient for its age, using as many past inputs as the coefficient matrix has columns and fewer only at the start.", "quantifier": "all input histories and coefficient matrices", "why_tests_cant": "Unbounded histories.", "anchors": ["src/matrix/operator.hh: ConvolutionTemporal"]}
{"id": "C81", "title": "Rotation conversions are inverse of each other", "statement": "Converting a rotation matrix to a quaternion, to an angle and axis, or to roll-pitch-yaw angles and back gives the same rotation; converting a unit quaternion to a matrix and back gives the quaternion up to its sign; poses keep their position.", "quantifier": "all rotations and unit quaternions, including half turns and gimbal lock", "why_tests_cant": "Universal over reals, with degenerate cases of measure zero.", "anchors": ["src/matrix/operator.hh: SE3/SO3 conversions"]}
{"id": "C82", "title": "Matrix selections", "statement": "Selecting a block or a column part of a matrix returns exactly these entries, transposing exchanges the entries, and making a diagonal matrix puts the vector on the diagonal of a matrix of the size asked for.", "quantifier": "all matrices and bounds", "why_tests_cant": "Universal over sizes.", "anchors": ["src/matrix/operator.hh: MatrixSelector, MatrixColumnSelector, MatrixTranspose, Diagonalizer"]}
{"id": "C83", "title": "Error derivative from the reference", "statement": "The error derivative of a feature is zero when it has no reference or the reference's derivative is not plugged, and otherwise the opposite of the selected components of the reference's derivative; a derivative shorter than the dimension is refused.", "quantifier": "all selections and references", "why_tests_cant": "Universal over sizes and masks; wrong sizes are undefined behaviour.", "anchors": ["src/feature/feature-abstract.cpp: computeErrorDot"]}
{"id": "C84", "title": "Direction feature jacobian", "statement": "The error of the direction feature is the vector of the frame expressed in the world minus the desired vector, independent of the position of the frame, and its jacobian is the exact derivative of the error.", "quantifier": "all frames, vectors and motions", "why_tests_cant": "Real-analysis statement.", "anchors": ["src/feature/feature-vector3.cpp"]}
{"id": "C85", "title": "Line distance is zero exactly when the lines meet", "statement": "For lines that are not parallel the error is zero exactly when they meet, and its square is the least squared distance between them (for unit orthogonal directions).", "quantifier": "all pairs of lines", "why_tests_cant": "Universal over reals.", "anchors": ["src/feature/feature-line-distance.cpp: computeError"]}
{"id": "C86", "title": "Line distance jacobian", "statement": "The jacobian of the line distance feature is the exact derivative of its error along the motions of the frame.", "quantifier": "all lines and motions", "why_tests_cant": "Real-analysis statement over long generated expressions.", "anchors": ["src/feature/feature-line-distance.cpp: computeJacobian"]}
{"id": "C87", "title": "Visual point projecter", "statement": "The projecter expresses a point in the camera frame and divides by its depth; points are accepted when they are in front of the camera.", "quantifier": "all poses and points", "why_tests_cant": "Universal over reals; assertion builds differ.", "anchors": ["src/feature/visual-point-projecter.cpp"]}
{"id": "C88", "title": "Kalman gain is the optimal one", "statement": "The update never increases the predicted covariance, no other gain leaves a smaller covariance and only that gain leaves it, and the estimate minimises the quadratic cost weighing the prediction and the measurement by their covariances.", "quantifier": "all models, noises and measurements of any size", "why_tests_cant": "Optimality is a statement over every other gain and every other estimate.", "anchors": ["src/tools/kalman.cpp: computeVarianceUpdate, computeStateUpdate"]}
{"id": "C89", "title": "AHRS step descends the misalignment of gravity", "statement": "A measurement moves the quaternion by the rate of the gyroscope less beta times the normalised gradient of the squared distance between the measured direction of gravity and the one the quaternion predicts; at rest with the right attitude nothing moves.", "quantifier": "all quaternions and measurements", "why_tests_cant": "The long feedback expressions equal a gradient for every quaternion.", "anchors": ["src/filters/madgwickahrs.cpp: madgwickAHRSupdateIMU"]}
{"id": "C90", "title": "Admittance law", "statement": "Within the saturation the velocity follows the linear recursion of the force error, decays geometrically when the force is the desired one, keeps its steady value, and the velocity given in the body frame does the same work as the one in the world frame.", "quantifier": "all gains, forces, poses and histories", "why_tests_cant": "Unbounded histories over real inputs.", "anchors": ["src/control/admittance-control-op-point.cpp"]}
{"id": "C91", "title": "Stopwatch extrema and pauses", "statement": "The maximum and minimum reported are those of the recorded lapses when these are positive; zero lapses, clocks reading zero and pauses are exactly where it fails; a stopwatch turned off records nothing, and resetting empties every record while keeping its name.", "quantifier": "all histories and clock readings", "why_tests_cant": "Unbounded histories.", "anchors": ["src/utils/stop-watch.cpp"]}
{"id": "C92", "title": "Sequencer registration", "statement": "Adding puts an event last at its time and changes no other time; removing removes exactly the first event of that kind and name, forgets the time when empty, and clearing deletes each event once; registering an event twice and clearing deletes it twice.", "quantifier": "all schedules", "why_tests_cant": "Unbounded schedules; aliasing of pointers.", "anchors": ["src/tools/sequencer.cpp: addTask, rmTask, clearAll"]}
{"id": "C93", "title": "Error of the six-dimensional position feature", "statement": "The error holds exactly the selected components of a translation and a rotation vector that carry the reference to the frame (or back); it is zero exactly at the reference, its rotation part never exceeds a half turn and has the same length in both computation frames, it does not depend on the choice of the world frame, `keep` cancels it, and only the two documented frame names are accepted.", "quantifier": "all poses whose linear parts are rotations, selections and frames", "why_tests_cant": "A continuum of poses, including those near the half turn.", "anchors": ["src/feature/feature-point6d.cpp: computeError, servoCurrentPosition, computationFrame"]}
{"id": "C94", "title": "Jacobian of the six-dimensional position feature", "statement": "For a fixed reference, the Jacobian gives the velocity of the translation error and of the squared norms, and the joint velocities for which it announces minus lambda times the error make the whole error decrease exactly as exp(-lambda t), from any error that is not a half turn.", "quantifier": "all differentiable motions, joint velocities and gains", "why_tests_cant": "Continuous time trajectories.", "anchors": ["src/feature/feature-point6d.cpp: computeJacobian"]}
{"id": "C95", "title": "Error derivative of the six-dimensional position feature", "statement": "For a reference that moves, the sum of what the Jacobian and the error derivative announce is the velocity of the translation error and of the squared norm of the rotation error, and cancelling it makes both decrease exponentially at the chosen rate; the error derivative alone is the velocity of the error when the frame rests.", "quantifier": "all differentiable motions of the frame and of the reference", "why_tests_cant": "Continuous time trajectories.", "anchors": ["src/feature/feature-point6d.cpp: inverseJacobianRodrigues, computeErrordot"]}
{"id": "C96", "title": "Relative position feature", "statement": "The error is zero exactly when the second frame has in the first one the asked pose, `initSdes` cancels it and the choice of the world does not matter; the Jacobian gives the velocities of the squared norms of its two parts, so the law of the task makes both decrease exponentially at the chosen rate.", "quantifier": "all poses and differentiable motions of two frames", "why_tests_cant": "Continuous time trajectories.", "anchors": ["src/feature/feature-point6d-relative.cpp: computeError, computeJacobian, initSdes"]}
{"id": "C97", "title": "Pose feature", "statement": "The error compares the pose of frame B in frame A with the desired one and is zero exactly when they are equal; the Jacobian is exactly its derivative for all six components away from the half turn, so the law of the task makes the error decrease exactly as exp(-lambda t) along a straight line; the error derivative is the velocity due to the motion of the desired pose.", "quantifier": "all poses and differentiable motions of two joints and of the desired pose", "why_tests_cant": "Continuous time trajectories.", "anchors": ["include/sot/core/feature-pose.hxx: computefaMfb, computeError, computeJacobian, computeErrorDot, servoCurrentPosition"]}
{"id": "C98", "title": "Reading a trajectory", "statement": "The command initTraj applied to a written trajectory, with any text without opening parenthesis around it, sets the sequence number and the frame, appends the written joint names and the written points in order, and each sequence of a point gets exactly the numbers with a decimal point written in it, in order.", "quantifier": "all written trajectories, with any number of names, points and values", "why_tests_cant": "Unbounded texts.", "anchors": ["src/tools/trajectory.cpp: RulesJointTrajectory, Trajectory::deserialize", "src/tools/joint-trajectory-entity.cpp: setInitTraj"]}
{"id": "C99", "title": "End of the reading of a trajectory", "statement": "The command initTraj returns if and only if the text that follows the header has a letter, digit or underscore followed at once by a closing parenthesis; otherwise it runs for ever. When it returns, the names and the points that the trajectory had are kept, at least one name is added, and the time stamp is unchanged.", "quantifier": "all texts and all trajectories", "why_tests_cant": "All texts, and a run that does not end.", "anchors": ["src/tools/trajectory.cpp: parse_joint_names, parse_seq, parse_points, Trajectory copy constructor"]}
{"id": "C100", "title": "Continuous task: transition of the desired velocity", "statement": "The continuous task gives the velocity of the ordinary task as long as no reference time is set or the Jacobian cannot be read; with a reference time and a positive rate its desired velocity starts at the velocity that the robot had and tends to that of the ordinary task as time passes. A Jacobian whose number of columns differs from that of the stored posture ends the program instead of falling back to the ordinary task, and since the stored rate is zero and no command changes it, the desired velocity with a reference time is zero whatever the error.", "quantifier": "all errors, gains, Jacobians, velocities, times and states", "why_tests_cant": "The limit and all sizes.", "anchors": ["src/task/task-conti.cpp: TaskConti::computeContiDesiredVelocity", "include/sot/core/task-conti.hh"]}
{"id": "C101", "title": "Periodic motion", "statement": "The motion is computed if and only if no period is zero; each component is its offset plus its amplitude times the sine or cosine of the time elapsed since its initial time in turns of its period, repeats after the period from the initial time on, and stays within the amplitude of the offset. Before the initial time it repeats when the period divides 2^32, and can jump otherwise. The entity offers no way to set its parameters, so its own output is always the empty vector.", "quantifier": "all parameters and times", "why_tests_cant": "Unbounded times, wrap around of the unsigned difference, real functions.", "anchors": ["src/tools/motion-period.cpp: MotionPeriod::computeMotion, resize"]}
{"id": "C102", "title": "Reference of a feature", "statement": "After setReference with the name of a feature of the same class, getReference gives that name; an unknown name is refused; a feature of another class is accepted without error and leaves the feature without reference. After any history the outputs depend on the inputs of the current reference. If each reference is removed before another is set and the feature is not its own reference, the outputs depend exactly on the inputs of the feature and of its reference, and setting and removing a reference changes nothing. Replacing a reference leaves the outputs depending on the replaced one for ever, and removing a reference to itself removes the dependency of a generic feature on its own input.", "quantifier": "all features, histories of references", "why_tests_cant": "All histories.", "anchors": ["include/sot/core/feature-abstract.hh: FeatureReferenceHelper, DECLARE_REFERENCE_FUNCTIONS", "src/feature/feature-abstract.cpp: setReferenceByName, getReferenceByName", "src/feature/feature-generic.cpp, feature-point6d.cpp, feature-visual-point.cpp: addDependenciesFromReference, removeDependenciesFromReference"]}
{"id": "C103", "title": "PD and gravity controllers", "statement": "The PD controller gives, component by component, Kp times the position error plus Kd times the velocity error, and the two error outputs, exactly when all six inputs have the same size; any other size is undefined behaviour. Along any trajectory of unit double integrators closed by this controller with positive gains and a fixed desired position, the energy of each joint decreases exponentially. The gravity controller gives A*acceleration + gravity exactly when the sizes agree; with an injective inertia matrix the joints get the acceleration asked for.", "quantifier": "all gains, positions, velocities, matrices, trajectories", "why_tests_cant": "All sizes and trajectories, unbounded time.", "anchors": ["src/control/control-pd.cpp: computeControl, getPositionError, getVelocityError", "src/control/control-gr.cpp: computeControl"]}
{"id": "C104", "title": "Time stamps and timers", "statement": "The time stamp as a double is the clock in milliseconds, strictly increasing with the clock, and agrees with the vector of the same reading. The synchronised signals give one and the same value whenever they are read at one time. The synchronised vector and the synchronised double of one time come from two readings of the clock and may disagree. A timer passes its input through and gives the duration of the last computation in milliseconds for both clocks. The chrono command does not run its argument.", "quantifier": "all clock readings, histories of reads", "why_tests_cant": "All histories and clock readings.", "anchors": ["src/tools/time-stamp.cpp", "include/sot/core/timer.hh: Timer::compute", "src/tools/timer.cpp: cmdChrono"]}
{"id": "C105", "title": "Parameter server", "statement": "A parameter set on a robot through one server is read back with its value through every server of that robot, after any commands that do not set the same path; other robots are unaffected, other paths are unaffected except that missing prefixes of the path become readable with an empty text. A parameter never set raises an exception. Before the initialisation the commands have no effect. In a program in which no initialisation raised an exception, an initialised server has a robot. An initialisation without a robot name when there is not exactly one robot raises an exception but leaves the server initialised, so that the next use dereferences a null pointer; so does the display before the initialisation, and a missing parameter whose name ends with a separator violates an assertion.", "quantifier": "all servers, robots, names, values and histories of commands", "why_tests_cant": "All histories and names.", "anchors": ["src/tools/parameter-server.cpp", "include/sot/core/parameter-server.hh: setParameter, getParameter", "include/sot/core/robot-utils.hh: RobotUtil::set_parameter, get_parameter"]}
{"id": "C106", "title": "Loader of the stack of tasks", "statement": "After any calls of the loader, whatever the dynamic linker and the interface answer, the interface was used only between its creation and its destruction and while its library was open, and nothing was destroyed or closed twice. Nothing is called while the graph is stopped; while it runs an iteration gives the sensors and then asks for the control, once each. If each initialisation succeeds and is cleaned up before the next one, nothing is left after the last clean-up. Iterating while running without a loaded interface dereferences a null pointer; two initialisations in a row lose the first interface; a failed one loses the handle and can make the wrong library destroy the interface; the device is deregistered by each clean-up.", "quantifier": "all histories of calls", "why_tests_cant": "All histories and answers of the linker.", "anchors": ["src/tools/sot-loader.cpp: initialization, cleanUp, oneIteration, loadDeviceInPython", "include/sot/core/sot-loader.hh"]}
{"id": "C107", "title": "Filter differentiator entity", "statement": "At each time the filter takes exactly one sample, whatever outputs are read and however often, and the outputs read at that time are the value, the derivative and the second derivative of that sample; over any increasing times, with at least one output read at each, the outputs are those of the causal filter on the sequence of inputs, hence they satisfy its difference equation. Reading an output or switching the filter before init uses uninitialised members; an input of another size, a time step that is not positive, a negative size and an empty denominator violate assertions; an init between two readings at one time makes the second reading cut the old vector with the new size.", "quantifier": "all sizes, inputs, increasing times, and sets of outputs read at each time", "why_tests_cant": "All orders of reading and all histories.", "anchors": ["src/filters/filter-differentiator.cpp", "include/sot/core/filter-differentiator.hh"]}
{"id": "C108", "title": "Reader of a growing file", "statement": "After a first call that skips what the file contains, any interleaving of additions of complete non-empty lines of at most 255 characters, of calls and of extractions gives exactly the added lines, in order, each once; a call reports whether it found a line. A file that does not exist at the first call is read from its start later; opening again reads the whole file. A line is available exactly when extraction is defined. An empty line stops the reader for ever; a file whose last line is not complete is given again from its start at each call; a line longer than the buffer is cut and one character of it is lost; extraction without a line reads an empty list.", "quantifier": "all files, lines and histories of additions, calls and extractions", "why_tests_cant": "All histories and lengths.", "anchors": ["src/debug/contiifstream.cpp", "include/sot/core/contiifstream.hh"]}
{"id": "C109", "title": "Memory of the projectors of the stack", "statement": "When no task is twice in a stack, the projectors that its levels receive are those of the mathematical description, whatever computations with the same tasks, other stacks or other numbers of joints were made before: no projector is overwritten while it is used, no freed memory is read. Between the computations each projector fits in the buffer of its task, two tasks never share a buffer, no buffer is lost, a buffer has the largest size that was requested. A computation that is repeated allocates no buffer after the first time, and the first projector of a task of full rank needs no allocation besides that of the memory. A task at two successive levels above a third one makes the product that computes its second projector read the buffer that it writes. When the first task is disabled and no projector is given, the tasks below it are not processed.", "quantifier": "all stacks, tasks, dimensions and sequences of computations", "why_tests_cant": "All histories of computations; aliasing is not visible in one run.", "anchors": ["include/sot/core/memory-task-sot.hh: resizeKernel, getKernel", "src/sot/memory-task-sot.cpp", "src/sot/sot.cpp: getMemory, computeControlLaw"]}
{"id": "C110", "title": "Operators on homogeneous matrices", "statement": "Composing a rotation and a position gives a transformation with that rotation and that position, and an affine transformation is composed of its rotation and position; the conversions between four by four matrices and transformations are inverse of each other and other sizes violate an assertion; the inverse of an affine transformation with an invertible linear part is its inverse and agrees with the inverse of its matrix; a transformation moves points (last component one) and turns directions (last component zero), and applying two transformations is applying their product; products, differences, scalings, comparisons and norms are the mathematical ones and sizes that do not match violate an assertion. The inverse of a transformation made from a matrix with another last row is not its inverse; a vector of three components is refused by the product; the inverse of a rotation is wrong for every invertible matrix that is not orthogonal.", "quantifier": "all matrices, vectors and sizes", "why_tests_cant": "All real matrices and all sizes.", "anchors": ["src/matrix/operator.hh: Inverser, Normalize, InverserRotation, HomoToMatrix, MatrixToHomo, HomoToRotation, MatrixHomoToPose, Multiplier_FxE__E, Substraction, Composer, Comparison"]}
{"id": "C111", "title": "Matrices and angles of the Python library", "statement": "The matrix of a pose turns by the roll about the first axis, then by the pitch about the second, then by the yaw about the third, and has the position of the pose, as the operators of the library compute; a transformation converted to angles and back is the same one unless its pitch is within a thousandth of a quarter turn, where each entry differs by at most twice the cosine of the pitch, less than two thousandths, the result being exact at the pole; the angles of a pose outside of that band are found again. The matrix generated from a vector is orthogonal with that direction as first column. In the band every pitch other than the pole has poses that are changed; the function that is documented as giving roll, pitch and yaw gives them in the opposite order; the generated matrix, documented as a rotation, is a reflection exactly when the determinant of the vector and the two random ones is negative.", "quantifier": "all poses, transformations, quaternions and vectors", "why_tests_cant": "All real angles, including the neighbourhood of the poles.", "anchors": ["src/dynamic_graph/sot/core/matrix_util.py"]}
{"id": "C112", "title": "Calendar of actions", "statement": "Functions registered for a time are called when that time is run, in the order of registration, after the functions registered for all times and the pings; nothing is removed, so that running a time again calls them again; a fast forward is the runs of all times from zero. Stopping removes the first occurrence of the pair, and is an error that changes nothing when the pair is not registered. A function registered with a documentation, or by decoration, for all times cannot be stopped by giving the function or its name; a list of pairs is an error although documented; a function that stops itself makes the run skip the next one; a function registered for the current time during the run is called in it, hence a function that registers itself makes the run endless; an exception ends the run.", "quantifier": "all calendars, functions and times", "why_tests_cant": "All histories of registrations and all behaviours of the functions.", "anchors": ["src/dynamic_graph/sot/core/utils/attime.py"]}
{"id": "C113", "title": "Interruptible loop in a thread", "statement": "Whatever the interleaving of the script and of the loop: the counter is the number of bodies that ended; after a pause at most one body is called, only if the loop had tested the flag before; a quit asked after the loop has begun ends it in eight steps with at most one body, whatever the script does later; one turn asked of a loop that waits gives exactly one body and the loop waits again; a loop that plays calls the body at each turn. A quit asked before the thread has begun is lost for ever; a turn asked while the body runs after a pause is lost; a play that ends while the loop is about to undo an earlier request of one turn is undone; a second play before the thread has begun and a play after the end raise, so that the loop cannot be restarted. The method restart never succeeds: it waits until the loop ends and then raises, and the body is never called again. The bodies called by the shortcuts next and n + x are not counted.", "quantifier": "all interleavings of the steps of the two threads", "why_tests_cant": "Races: the interleavings are chosen by the scheduler.", "anchors": ["src/dynamic_graph/sot/core/utils/thread_interruptible_loop.py"]}
{"id": "C114", "title": "Going to a posture by limbs", "statement": "Each of the thirty joints belongs to exactly one of the main limbs, no limb contains the free flyer, and legs and arms are made of their parts. A call to go to a posture returns exactly if every limb is known and fits in the size used, the values are one number or as many as the joints of the limb and fit in the position, and the gain is acceptable; then the joints selected are those of the limbs named and no other, the reference of each joint is the last value given for it and otherwise that of the position given or zero, and the gain is set. A position given before any call without one is refused; the size is that of the first robot of the program, so that a second robot of another size gets a reference of the wrong size; an array given by the caller is modified, even by a call that is refused.", "quantifier": "all limbs, values, positions and sizes", "why_tests_cant": "All sequences of arguments and all sizes.", "anchors": ["src/dynamic_graph/sot/core/meta_task_posture.py"]}
{"id": "C115", "title": "Meta tasks: displaced operational point, references and gains", "statement": "When the signals of the robot have distinct short names, an operational point is created exactly if its position or its Jacobian is missing. Whatever was assigned before, assigning a displacement makes the feature read the displaced position and its Jacobian and is what is read back, and assigning false makes it read the robot; in a relative task the two points do not interfere. Three numbers are a translation, six are a position and roll, pitch and yaw, a four by four matrix is itself; going to a position sets the reference, the selection and the gain, or changes nothing if the position or the selection is refused. A refused displacement leaves the feature on the modifier although false is read back; the visual task cannot be constructed; a gain of another length is ignored and a position in another form is taken for the identity, without an error; with several signals of the same short name the test of existence is on the parity of the Jacobians.", "quantifier": "all histories of assignments, arguments and names", "why_tests_cant": "All histories, all real values and all forms of arguments.", "anchors": ["src/dynamic_graph/sot/core/meta_task_6d.py", "src/dynamic_graph/sot/core/meta_tasks.py", "src/dynamic_graph/sot/core/meta_tasks_kine_relative.py", "src/dynamic_graph/sot/core/meta_task_visual_point.py", "src/dynamic_graph/sot/core/feature_position_relative.py: I4"]}
{"id": "C116", "title": "History of an execution", "statement": "The history holds the states recorded at the multiples of its period, in order. If it recorded at all times since the start, what is restored for a time that was reached is the state at the last multiple of the period that does not exceed it; restoring returns exactly for the times whose quotient by the period numbers a record, from the start or from the end. The files can be written exactly if there is a record and all positions have thirty-six coordinates, and have the lines described. The time printed with the state is the number of the record; a history that starts later or records a time twice restores other states; the times written in the files do not use the period.", "quantifier": "all executions, periods, times and positions", "why_tests_cant": "All executions and all periods.", "anchors": ["src/dynamic_graph/sot/core/utils/history.py"]}
{"id": "C117", "title": "Exceptions: codes, messages and formats", "statement": "The codes of the classes of exceptions are disjoint; the printed text of an exception determines its class, its code and its message, and is the class, the code in brackets and the message. An exception built with a format is defined exactly if the format can be rendered with the arguments; its message is then the one given followed by at most 255 characters of the rendering for signals, factories, dynamics and tools, whereas for tasks and features the message given is lost. Without arguments a format is rendered exactly when its percent signs are doubled: the error of a feature whose reference is too short is its name alone, and is undefined for a name with a percent sign that is not doubled. An exception that goes through calls keeps its code and its message, and its class exactly if it was the base class or no call rethrows it. The errors of the pool say what is wrong and the name, whatever its characters, cut after 255 characters.", "quantifier": "all classes, codes, messages, formats, arguments, names and nestings", "why_tests_cant": "All formats and names; undefined behaviour of the format is not observable in general.", "anchors": ["src/exception", "include/sot/core/exception-abstract.hh", "src/factory/pool.cpp", "src/feature/feature-generic.cpp", "src/feature/feature-visual-point.cpp"]}
{"id": "C118", "title": "Traces: what the files hold", "statement": "For every sequence of trace statements, openings and closings, as long as the disk accepts what is written, each file holds exactly the lines whose level is not above the mode, in order, that were issued while it was the file opened last, and nothing is written while no file is open; no text waits from one statement to the next. Opening empties the file, even if it is the one being written, and succeeds exactly if the system accepts and the stream did not fail with a file open; after closing nothing is written until an opening. Once a line was refused by the disk, nothing is written any more whatever is opened or closed; formatted errors of a level above zero are never written; without traces compiled in only the unformatted errors are written, in a file that was opened.", "quantifier": "all sequences of statements, modes, levels, texts and files", "why_tests_cant": "All interleavings of statements with openings, closings and failures of the disk.", "anchors": ["src/debug/debug.cpp", "include/sot/core/debug.hh"]}
{"id": "C119", "title": "Texts that describe the stack, the tasks and the pool", "statement": "The command that lists the tasks of the stack returns a text that Python reads as the tuple of their names in order, and that of the features as the list of their names, if the names need no escape; a name with a quote makes other names appear. The display of a stack and of a task has one line per task or feature in order; the graph of a task has one edge per feature, that of the stack an edge from each task to the next one and a cluster with all of them, and closes the blocks it opens. The graph of the pool never closes its first block. The pool names the graph after the file without what follows the last dot; with a directory the name begins with a slash, and the call throws exactly if the last dot is in the name of a directory.", "quantifier": "all names, stacks, tasks and paths", "why_tests_cant": "All names and all paths.", "anchors": ["src/sot/sot.cpp", "src/sot/sot-command.h", "src/task/task.cpp", "src/task/task-command.h", "src/factory/pool.cpp"]}
{"id": "C120", "title": "Declared dependencies and answers kept", "statement": "An output that keeps its last value and computes it again only when a declared input has been set answers the value for the present inputs after all histories of settings and requests exactly if it declares every input that its value depends on; in a graph of outputs that declare what they depend on every answer is the value that the present inputs determine, and asking ends. The errors of the features (generic, sum of squares, joint limits, point in an image, direction, position, pose), the Jacobians of the point, the position, the relative position and the pose, the controller and the position of the operational point declare all. These ones forget inputs, and exactly these, so that they answer old values: the Jacobian of the sum of squares (the vector), the posture (the desired posture and its velocity), the Jacobian and the dimension of the joint limits (the limits), the Jacobian of the direction (the direction), the line and its distance (the direction and the other line), the velocity of the error of the position (the velocity of the reference), the relative error (the second position of the reference), the Jacobian of an operational point that is not an end effector (the position), the force in the world (the sensor), the variance of the Kalman filter (the measure and its noise).", "quantifier": "all outputs, graphs, inputs and histories of settings and requests", "why_tests_cant": "A test that sets all inputs before it asks never sees an old value; all interleavings count.", "anchors": ["src/feature", "include/sot/core/feature-pose.hxx", "src/math/op-point-modifier.cpp", "src/control/control-pd.cpp", "src/control/admittance-control-op-point.cpp", "src/tools/kalman.cpp"]}
{"id": "C121", "title": "Small entities: periodic calls, flag setting, constants, sign bit, Windows clock", "statement": "Reading the trigger of a periodic caller recomputes the signals that are due; a reading of the flushing trigger that ends normally empties the set, so later readings recompute nothing, and one interrupted by an exception keeps it. The command setflag writes on a signal of flags exactly the texts made of white space, 0s, 1s and spaces; it refuses every other text, including every text of the form its help announces, and changes nothing then. The output of a constant of vectors, matrices or numbers is what the last command asked for. The sign bit is 1 for non-negative integers and 0 for negative ones. The replacement clock of Windows gives whole seconds and microseconds since 1970 between 1970 and 2038, and a negative number of seconds from 2038 on.", "quantifier": "all sets of signals, sequences of readings, texts, sequences of commands, integers and clock values", "why_tests_cant": "Texts, command sequences and clock values are unbounded; the clock fails only after 2038.", "anchors": ["src/tools/periodic-call-entity.cpp", "src/tools/additional-functions.cpp", "src/matrix/vector-constant.cpp", "src/matrix/matrix-constant.cpp", "src/math/double-constant.cpp", "src/tools/binary-int-to-uint.cpp", "src/tools/utils-windows.cpp"]}
{"id": "C122", "title": "Logs and messages of the viewer helpers", "statement": "Whatever files existed and whatever calls are made, the log of an element holds one line for each call about it, in order, can be read back, and no log of an earlier run remains; making the log also removes every file of /tmp whose name begins with view and ends with .dat. Installing the viewer on a class of robots makes a step do its own work, send one message and display; installing it twice on a class makes every step of every robot of the class call itself without end, and a second robot without viewer raises an exception after its step. Only a robot called robot_device is sent as hrp. A state given as a tuple is sent followed by the zeros asked for; a state given as an array is not. The pinger sends 1, 2, 3, and so on. The projection of the centre of mass is sent from the first positive time on.", "quantifier": "all files, elements, sequences of calls, names, states", "why_tests_cant": "Sequences of calls and contents of the directory are unbounded.", "anchors": ["src/dynamic_graph/sot/core/utils/viewer_loger.py", "src/dynamic_graph/sot/core/utils/viewer_helper.py"]}
{"id": "C123", "title": "Position features of the Python library", "statement": "A feature of a position made from a signal and a tuple has an error of six numbers, the displacement that brings the body to the reference, zero exactly there; without a reference the error raises an exception until one is set, and an array or a signal as reference is refused. After keep the error is the displacement back to the place of the body at that time. A relative feature accepts signals, values or nothing for the identity; its error is zero exactly when the other frame is placed in the base frame as in the references and does not change when both bodies move together. When its references cannot be read the exception is lost and the error is the one without references. Its keep writes the other frame only, so the error is zero after it exactly when the base frame is at its reference. Its error is not the one its documentation announces.", "quantifier": "all positions, rotations, signals, arguments and times", "why_tests_cant": "Poses are uncountable and the failures of the references happen only for some signals.", "anchors": ["src/dynamic_graph/sot/core/feature_position.py", "src/dynamic_graph/sot/core/feature_position_relative.py", "src/feature/feature-point6d.cpp", "src/feature/feature-point6d-relative.cpp"]}
{"id": "C124", "title": "A posture task in closed loop", "statement": "A device driven in velocity by a stack with one task, which has one posture feature on joints after the first six. As long as the velocity asked for is within the limit of the stack, after k steps the distance to the posture of each joint that is both active in the posture and selected in the task is the first distance times (1 - gain * period) to the power k, the other joints after the first six have not moved, and no task is reported as disabled. With a gain times the period strictly between zero and two (at most one when the device checks its bounds, with joints and posture within them) and a first velocity within the limit, the joints converge to the posture. With a first velocity above the limit the robot never moves and the task is reported at each step. Without checks and with a gain times the period negative or above two, a robot that is not at the posture moves away until the velocity is above the limit, and stays there for ever.", "quantifier": "all robots, postures, selections, gains, periods, limits, decompositions and numbers of steps", "why_tests_cant": "The number of steps, the positions and the gains are unbounded; convergence is a statement about infinite executions.", "anchors": ["src/feature/feature-posture.cpp", "src/task/task.cpp", "src/sot/sot.cpp", "src/tools/device.cpp"]}
{"id": "C125", "title": "Compatible tasks are all met by the shortest control", "statement": "For a stack without initial control, with an orthonormal projector or none: if some velocity in the image of the projector meets every task and its squared norm is within the limit of the stack, then no task is reported as disabled, every task is met exactly, and the control is the shortest velocity of that image that meets them all, any other one being strictly longer; hence the control does not depend on the singular value decomposition used. The condition that no singular value met lies between zero and the threshold is implied when each task can be moved in any direction, without moving the tasks above it, by velocities at most 1/a times longer than what they give, with a above the threshold.", "quantifier": "all stacks, sizes, Jacobians, selections, projectors, thresholds, limits and decompositions", "why_tests_cant": "Stacks and Jacobians are uncountable; minimality is a statement about all other velocities.", "anchors": ["src/sot/sot.cpp"]}
{"id": "C126", "title": "A stack of tasks in closed loop", "statement": "A device driven in velocity without checks by a stack of tasks with one feature each. If the errors of the features are affine in the joints after the first six and, at each of the first k steps, some velocity within the limit of the stack meets all the tasks, then after k steps the error of each task is the first one times (1 - its gain * period) to the power k, whatever its rank in the stack, and no task is reported. With the same gain for all tasks and the gain times the period between zero and two, it is enough that some velocity within the limit meets the tasks at the first step: the joints then move along a straight line, whose direction is the shortest velocity that meets the tasks, and converge to the place nearest to the start where all the errors are zero. For any differentiable features, when some velocity within the limit meets all the tasks, the control makes the error of each task decrease at the rate of its gain.", "quantifier": "all stacks, features, gains, periods, limits, decompositions and numbers of steps", "why_tests_cant": "Convergence is a statement about infinite executions and over all stacks.", "anchors": ["src/task/task.cpp", "src/sot/sot.cpp", "src/tools/device.cpp"]}
{"id": "C127", "title": "Tables of a robot filled by the servers", "statement": "An identifier given to a parameter server is the integer part, towards zero, of the number given; the command is defined exactly when it fits in 64 bits. The limits of a joint or of a force sensor, the identifier of the name of a joint or of a sensor and the order of the joints are those set last by any server of the robot, after any commands of any servers that do not set the same entry; the other robots and the other data are unaffected, and nothing is changed before the initialisation. After any history the tables of names are those of some list of registrations. A position is in range exactly when it is between the limits of the joint; when they were never set, exactly when it is zero. A joint with a negative identifier is said not to exist.", "quantifier": "all histories of commands of all servers, numbers, names and limits", "why_tests_cant": "Servers share robots by name, in all histories; the conversion matters for all numbers.", "anchors": ["src/tools/parameter-server.cpp", "src/tools/robot-utils.cpp"]}
{"id": "C128", "title": "Features of a task: list, dependencies and answers", "statement": "The features of a task are the known ones added since it was created or last cleared, in order and as many times as they were added; a name that the pool does not know is refused with an exception and changes nothing. After every history of commands the error, the derivative, the jacobian and the velocity of the task declare exactly the signals of its present features and their own inputs, so that they answer the present values as long as the task is not edited. After an edit the answer is that of the new list as soon as a signal of one of its features is set; edits alone do not change the answer (a cleared task still answers its last error). The velocity of a PD task does not declare its input of the variation of the error. The selection of controls is set, restricted or emptied control by control; adding to it only restricts it; a change of it is seen by what depends on the jacobian.", "quantifier": "all histories of commands, questions and settings of signals, all features, all classes of tasks", "why_tests_cant": "The interleavings of edits, settings and questions are unbounded.", "anchors": ["src/task/task.cpp:34-142", "src/task/task-pd.cpp:31-46", "src/task/task-unilateral.cpp:29-52"]}
{"id": "C129", "title": "Positions of the device in rounded arithmetic", "statement": "With any rounding of relative error u (plus an absolute error for tiny numbers), a device driven in velocity by fewer numbers than it has positions gives positions that, after T steps, are within T times about u(X+b) of those that exact numbers give, X bounding the positions and b the displacement of one step; with checks of the bounds, X is the size of the bounds; without, the exact position is the first plus the period times the sum of the controls. In double precision: two hours at 1 ms, joints within 4 rad and 0.01 rad per step, 1e-8 rad. The bounds themselves hold exactly whatever the rounding.", "quantifier": "all roundings, devices, controls and numbers of steps", "why_tests_cant": "The error is a bound over all histories, and a test has no exact run to compare with.", "anchors": ["src/tools/device.cpp:356-476"]}
{"id": "C130", "title": "Joint limitator in front of the device, whatever the rounding", "statement": "The limitator plugged on the state of a device driven in velocity, at the period of 5 ms: from positions strictly inside the limits and whatever controls are asked, for ever, every joint beyond the first six stays strictly inside, with rounded numbers too (products must commute and adding zero must change nothing). With a period of 10 ms a joint may leave the limits in one period.", "quantifier": "all sequences of controls, all numbers of joints, all roundings", "why_tests_cant": "Unbounded sequences of controls and every rounding.", "anchors": ["src/tools/joint-limitator.cpp:57-85", "src/tools/device.cpp:414-476"]}
{"id": "C131", "title": "Regulation of a device by the proportional controller, with rounding", "statement": "The controller ControlPD without derivative gain, plugged on the last positions of a device driven in velocity: when the period times the gain is at most 1, the distance to the desired position is multiplied at each step by at most about (1 - gain*period), up to an amount of the order of the rounding of the desired position. In double precision, for gain*period between 1/1000 and 1: after T steps the distance is at most (1 - gain*period/2)^T times the first, plus (|p|+1)/10^12.", "quantifier": "all gains, desired positions, measured velocities and numbers of steps; all roundings", "why_tests_cant": "Convergence is over unbounded time and the bound holds for all inputs.", "anchors": ["src/control/control-pd.cpp:84-107", "src/tools/device.cpp:414-476"]}
{"id": "C132", "title": "Moving average and FIR filter with rounding", "statement": "The rounding errors of the two filters do not grow with time. The moving average with a weight between 0 and 1 is the exponentially weighted sum of its inputs up to an amount of the order of u X times 1 + k + k^2 + ... with k = (1+u)^2 times the weight, for inputs at most X. The output of a FIR filter is what the reset left in the result buffer plus the convolution of the coefficients and the last samples, up to an amount that depends on the number of coefficients and on the sizes of the products and of the result buffer only, after any proper history.", "quantifier": "all histories, weights, coefficients and inputs; all roundings", "why_tests_cant": "Unbounded histories; no exact reference in a test.", "anchors": ["src/tools/exp-moving-avg.cpp:61-79", "include/sot/core/fir-filter.hh:164-189"]}
{"id": "C133", "title": "Time stamps and durations with rounding", "statement": "In double precision and for every date up to 4e9 seconds (2096), the time stamp in one number is the number of milliseconds of the clock to less than half a microsecond; hence two of them are in the strict order of the microseconds of the clocks. A measured duration is the difference of the clocks up to the rounding of one quotient and one sum.", "quantifier": "all dates up to 2096, to the microsecond", "why_tests_cant": "4e15 dates and their pairs.", "anchors": ["src/tools/time-stamp.cpp:70-93", "include/sot/core/timer.hh:101-113"]}
{"id": "C134", "title": "Meta tasks of a script do not interfere", "statement": "After any script that makes meta tasks (operational point, relative, center of mass, posture) and assigns their opmodif/opmodifBase attributes in any order, with no two meta tasks naming a common entity, every meta task is wired as announced: its task contains exactly its feature, its feature has its own reference and reads the announced robot signals, displaced by the transformation last assigned (and only then through its modifier), its gain is connected both ways; no other entity exists; and the script raises no exception if the robot offers the signals. Names entail disjointness exactly when they differ and neither is the other followed by _ref (operational point tasks), or when they are different and without Rel/Des/Base prefix and _ref suffix (any classes). With colliding names the wiring of one task is damaged by the other: a shared reference plugged on the robot, a displacement of the base ignored, a feature twice in its task, an exception.", "quantifier": "all scripts, of any length; all names", "why_tests_cant": "Unboundedly many scripts, interleavings and names; collisions depend on the text of the names.", "anchors": ["src/dynamic_graph/sot/core/meta_task_6d.py:34-109", "src/dynamic_graph/sot/core/meta_tasks_kine_relative.py:12-90", "src/dynamic_graph/sot/core/meta_tasks.py:13-60", "src/dynamic_graph/sot/core/meta_task_posture.py:36-63"]}
{"id": "C135", "title": "Gain entities in closed loop", "statement": "A posture task whose gain is computed by an entity from the error of the task (adaptive, passing point, hyperbolic) drives the selected joints to the posture, if the gain stays between two positive bounds with gain times period below two (at most one when the device checks joint limits) and the requested velocity never exceeds the limit of the stack; the same holds for the errors of a stack of tasks each with its own entity. If instead, over an interval of distances at least as long as a step at the limit, the velocity requested exceeds the limit, the robot stops there for ever, although the gain further away was small enough: a gain entity that raises the gain near the target can stop the robot before the target.", "quantifier": "all robots, selections, targets, laws of gain, gains of the entities, numbers of steps", "why_tests_cant": "Convergence is over unboundedly many steps, for all laws and parameters; the stop happens only in a band of distances.", "anchors": ["src/dynamic_graph/sot/core/meta_task_posture.py:47-51", "src/dynamic_graph/sot/core/meta_task_6d.py:66-67", "src/task/gain-adaptive.cpp:166-174", "src/task/gain-hyperbolic.cpp:96-104", "src/task/task.cpp:232-239"]}
{"id": "C136", "title": "Size of the control of the stack, and its dependence on what the tasks ask for", "statement": "With an orthonormal initial projector and without the accelerated posture, the squared length of what the stack adds to the initial control is at most the limit times the number of tasks that are not disabled. For a positive threshold its length is also at most a number computed from the lengths of the velocities asked for and from how much each jacobian lengthens, so it does not blow up near a singularity; a task added at the bottom changes the control by at most what it still misses divided by the threshold. With the same jacobians and no disabled task the control is linear in the velocities asked for, and two controls differ by at most the same number computed from the differences of the requests. But the control jumps with the jacobian: two tasks on one joint whose jacobians are as close as wanted, on both sides of the threshold, give the velocities zero and one for the same request; and the unit in which a task is written decides whether it is left out.", "quantifier": "all stacks, thresholds, limits, jacobians, requests, decompositions", "why_tests_cant": "The bounds hold for every jacobian, in particular arbitrarily close to singularities where rounding hides them; the jump is found only on the threshold.", "anchors": ["src/sot/sot.cpp:361-385", "src/sot/sot.cpp:585-600"]}
{"id": "C137", "title": "The control of the stack does not depend on choices that have no meaning", "statement": "The control computed by the stack, the tasks it disables and the exceptions it raises are the same for all singular value decompositions that the library may return (signs of the vectors, choice of the vectors for equal or null singular values), even when tasks are singular, incompatible or disabled. They are the same when the columns of the initial projector are turned by an orthogonal matrix, and when each task is written in another orthonormal frame (with the accelerated posture, for the tasks that are not postures).", "quantifier": "all stacks, decompositions at each level, thresholds that are not negative, limits, initial controls, projectors, orthonormal frames", "why_tests_cant": "A test runs one library, which returns one decomposition for each matrix.", "anchors": ["src/sot/sot.cpp:361-385", "src/sot/sot.cpp:549-609"]}
{"id": "C138", "title": "The command getJointsUrdfToSot that init_simple adds", "statement": "Before the first initialisation without a device the command does not exist. The first one adds it, and then, whatever settings and robots follow, the command answers the order of the joints of the robot of that first initialisation: after the order is set by the parameter server it answers what was set. A second initialisation without a device of the same parameter server raises an exception, but after it has taken effect. After an initialisation for another robot, the settings go to the other robot and the command still answers for the first one.", "quantifier": "all sequences of initialisations and settings of a parameter server", "why_tests_cant": "The command keeps the address of a robot that an arbitrarily later initialisation replaces.", "anchors": ["src/tools/parameter-server.cpp:207-240", "src/tools/parameter-server.cpp:311-317", "src/tools/robot-utils.cpp:505-544"]}
{"id": "C139", "title": "Quaternions kept in the sources", "statement": "The matrix of a quaternion is a rotation times its squared length, so a rotation for length one; written in a third object the product of two quaternions has the product of their matrices and the product of their squared lengths; the conjugate has the transposed matrix, wherever it is written. The quaternion made from a rotation that is not a half turn has length one, a positive real part and gives back the rotation; from a quaternion of length one that is not a half turn to its matrix and back one gets the quaternion or its opposite. But the product written in one of its operands is wrong; for every half turn the quaternion made from the matrix is not that of the rotation, and not finite when the axis is orthogonal to the first one; and the quaternion made from an axis times an angle is always longer than one.", "quantifier": "all quaternions, rotations and vectors", "why_tests_cant": "The half turns are a set of measure zero that random rotations never hit.", "anchors": ["src/math/vector-quaternion.cpp:20-147"]}
{"id": "C140", "title": "Integration of the free-flyer by the device", "statement": "In velocity mode, without checks, with a control as long as the state, an increment brings the base exactly where a body goes that moves during the time step at the first six entries of the control, constant in its own frame, for every orientation, those with singular roll-pitch-yaw angles included; after n increments with a constant control the base is where that motion is after n steps, the state does not depend on how a duration is cut into increments, the opposite control brings the base and the joints back, the base moves by at most the length of its linear velocity times the time step, and freeFlyerPose is the pose of the base of the state. In acceleration mode the base follows the velocity of the middle of the step. But with the checks on, a base at rest with a negative yaw, within symmetric bounds below half a turn, is turned by an increment with a null control; freeFlyerPose then differs from the pose of the state that the bounds cut; in position mode the base goes where the control says and freeFlyerPose stays that of the last integration; a control with NaN that is refused leaves both; and a NaN yaw in the state makes the six values NaN.", "quantifier": "all states, controls, time steps and numbers of steps", "why_tests_cant": "The pose is compared with every motion at the constant velocity, for all orientations and all subdivisions of time.", "anchors": ["src/tools/device.cpp:40-65", "src/tools/device.cpp:504-553"]}
{"id": "C141", "title": "Pose feature compared as rigid motions", "statement": "With the SE(3) representation the error of the pose feature is the constant body velocity that leads in one unit of time from the desired pose to the current one, and is zero exactly when they are equal. The Jacobian is exactly its derivative for all six components away from the half turn, and the error derivative is exactly the velocity due to the motion of the desired pose. The law of the task makes the error decrease exactly as exp(-lambda t), the body moving on a screw to the desired pose.", "quantifier": "all poses, flags and differentiable motions of two joints and of the desired pose", "why_tests_cant": "Continuous time trajectories, and the derivative of a logarithm at every pose.", "anchors": ["include/sot/core/feature-pose.hxx:148-203 (computeJacobian)", "include/sot/core/feature-pose.hxx:231-302 (computeError, convertVelocity, computeErrorDot)", "include/sot/core/feature-pose.hxx:307-318 (servoCurrentPosition)"]}
{"id": "C142", "title": "Base driven by a pose task in closed loop", "statement": "A pose task with the SE(3) representation on the base of a robot, alone in the stack whose control drives the device in velocity mode without checks: from an error away from the half turn, within the limit of the control and an explicit bound for the threshold of the pseudo-inverses, with 0 <= gain*dt <= 2, the error after k steps is exactly the first one times (1 - gain*dt)^k, the frame of the feature stays on the motion at a constant velocity from the desired pose to the first one, the joints do not move and no task is reported. With gain*dt strictly between 0 and 2 the pose of the base converges to the one where the feature has the desired pose, and with gain*dt = 1 it is reached at the first step.", "quantifier": "all robots with a free-flyer, poses, gains, periods, thresholds, decompositions and numbers of steps", "why_tests_cant": "The whole trajectory of the closed loop is given exactly, for every decomposition and every number of steps.", "anchors": ["include/sot/core/feature-pose.hxx:148-203 (computeJacobian)", "include/sot/core/feature-pose.hxx:231-247 (computeError)", "src/task/task.cpp:148-313", "src/sot/sot.cpp:507-642", "src/tools/device.cpp:40-65", "src/tools/device.cpp:414-476"]}
{"id": "C143", "title": "The base and the joints driven by one stack", "statement": "A stack that holds a pose task with the SE(3) representation on the base of a robot, at any place among affine tasks that depend on the joints only, drives a device in velocity mode without checks: as long as some velocity meets the tasks of the joints and stays within the limit of the control together with that of the base, after k steps the base is exactly the one that the pose task alone would have given and the joints are those that the other tasks alone would have given; the error of each task is its first one times (1 - its gain*dt)^k, and no task is reported. With gains times the period strictly between 0 and 2, equal for the tasks of the joints, the pose of the base converges to the one where the feature has the desired pose, and the joints converge to the nearest place where all the errors of their tasks are zero.", "quantifier": "all robots with a free-flyer, poses, lists of affine tasks of the joints before and after the pose task, gains, periods, thresholds, decompositions and numbers of steps", "why_tests_cant": "The trajectories of three closed loops are compared for every stack, every decomposition and every number of steps.", "anchors": ["src/sot/sot.cpp:507-642", "include/sot/core/feature-pose.hxx:148-203 (computeJacobian)", "include/sot/core/feature-pose.hxx:231-247 (computeError)", "src/task/task.cpp:148-313", "src/tools/device.cpp:40-65", "src/tools/device.cpp:414-476"]}
{"id": "C144", "title": "The damped inverse near and at the singularities", "statement": "With a damping factor l that is not zero, the damped inverse of any matrix has no NaN entry, does not depend on the decomposition, gives a solution never longer than the right-hand side divided by 2|l| (a bound that is reached when |l| is a singular value), and leaves a residual no larger than the right-hand side, and smaller whenever the right-hand side can be reduced. A larger factor gives a shorter solution and a larger residual. When l goes to zero the damped inverse goes to the Moore-Penrose inverse, at most l^2/s^3 away where s bounds the nonzero singular values from below. With l equal to zero the result is the Moore-Penrose inverse when the matrix has full rank; otherwise every entry is NaN.", "quantifier": "all real matrices of any size, all right-hand sides, all damping factors, all valid decompositions", "why_tests_cant": "The interesting matrices are those near the singular ones, and the bounds quantify over all of them and over all right-hand sides; a limit is not a finite observation.", "anchors": ["src/matrix/matrix-svd.cpp: dampedInverse"]}
{"id": "C145", "title": "The base driven by a pose task with the R3xSO3 representation", "statement": "A pose task with the R3xSO3 representation on the base of a robot drives a device in velocity mode without checks. During each period the frame of the feature has a constant velocity in its own frame, the opposite of the two parts of the error times the gain, so it does not go straight when it turns. If the base turns by at most a quarter of a turn in the first period and pi*gain*dt is at most 4, then after k steps the rotation error is exactly the first one times (1 - gain*dt)^k, the position error never becomes longer, the joints do not move and no task is reported; if moreover gain*dt is positive, the pose of the base converges to the one where the feature has the desired pose. Without a rotation error the whole error is the first one times (1 - gain*dt)^k. When gain*dt is 1 the desired pose is reached exactly in two steps, for any angle below the half turn. Beyond a quarter of a turn the position error can grow: with gain*dt = 1 and an angle of 150 degrees it is longer after the first step.", "quantifier": "all robots with a free-flyer, poses of the frames, gains, periods, thresholds, decompositions and numbers of steps", "why_tests_cant": "The trajectory is described exactly for every number of steps and for the limit, for all initial poses; the growth needs a large angle and a large gain times period.", "anchors": ["include/sot/core/feature-pose.hxx:148-203 (computeJacobian)", "include/sot/core/feature-pose.hxx:231-247 (computeError)", "src/sot/sot.cpp:507-642", "src/task/task.cpp:148-313", "src/tools/device.cpp:40-65", "src/tools/device.cpp:414-476"]}
{"id": "C146", "title": "Outputs of a mailbox", "statement": "The outputs sout, object and timestamp of a mailbox, with the caches of the signals: when no output is read during a post, every reading of sout shows the last message posted; if moreover the dates of the readings after a post are later than those before it, every reading of the three outputs shows the last message posted. Whatever happened before, after a post that meets no other one and no reading, the readings at later dates show its message. In any history every answer is the initial contents or a message already posted. But a message posted between the readings of object and timestamp at the same date is shown by timestamp and never by object, at any later date, until the next post; and a reading that meets a post can show an older message after a newer one and lose the message of that post, until the next one.", "quantifier": "all histories of posts and readings at any dates, all messages, both conventions for an output asked again at the same date", "why_tests_cant": "The losses depend on the order of posts and readings and last for all the later dates; the guarantees hold for every history.", "anchors": ["include/sot/core/mailbox.hxx:20-37", "include/sot/core/mailbox.hxx:58-102", "include/sot/core/mailbox.hh:60-75"]}
{"id": "C147", "title": "The base driven by a task of a six-dimensional position", "statement": "A task with a feature of a six-dimensional position, on an operational point of the base displaced by a modifier, drives a device in velocity mode without checks, with the computation in the desired or in the current frame. During each period the operational point has a constant velocity in its own frame, given by the error and the gain. If the base turns by at most a quarter of a turn in the first period, gain*dt is positive and pi*gain*dt is at most 4, then after k steps the rotation error is exactly the first one times (1 - gain*dt)^k, the position error never becomes longer, the joints do not move and no task is reported; the pose of the base converges to the one where the operational point is at its reference. When gain*dt is at most 1/2 this holds from any angle, the half turn included. Without a rotation error the whole error is the first one times (1 - gain*dt)^k. When gain*dt is 1 the reference is reached exactly in two steps. From the same start the two frames give at every date errors of the same lengths. Away from the half turn, the desired frame gives the base the same poses as the pose feature with the R3xSO3 representation.", "quantifier": "all robots with a free-flyer, displacements, references, gains, periods, thresholds, decompositions and numbers of steps, both frames", "why_tests_cant": "The trajectory is described exactly for every number of steps and for the limit, for all initial poses; the comparison of the two frames holds at every date.", "anchors": ["src/feature/feature-point6d.cpp:174-278 (computeJacobian)", "src/feature/feature-point6d.cpp:292-352 (computeError)", "src/math/op-point-modifier.cpp:68-122", "src/dynamic_graph/sot/core/meta_task_6d.py:57-90", "src/sot/sot.cpp:507-642", "src/task/task.cpp:148-313", "src/tools/device.cpp:40-65", "src/tools/device.cpp:414-476"]}
{"id": "C148", "title": "The base driven by a meta task of a six-dimensional position with a gain entity", "statement": "As in the meta task of the Python library, the gain of the task of a six-dimensional position is computed from the error of the task by an entity. Whatever its law, if the gain times the period stays between a positive number and a number hi with pi*hi at most 4, the base turns by at most a quarter of a turn in a period, and the velocity asked at the start with the largest gain is within the limit, then each step multiplies the rotation error by one minus the period times the gain of the error at that step, the position error never becomes longer, the joints do not move, no task is reported, and the pose of the base converges to the one where the operational point is at its reference. When hi is at most 1/2 this holds from any angle, the half turn included. In particular for the adaptive gain, the gain given by a passing point (as in goto6d with four numbers) and the hyperbolic gain between two positive values.", "quantifier": "all laws of gain within the bounds, robots with a free-flyer, displacements, references, periods, thresholds, decompositions and numbers of steps, both frames", "why_tests_cant": "Convergence is over unboundedly many steps, for all laws and all initial poses.", "anchors": ["src/dynamic_graph/sot/core/meta_task_6d.py:46-67", "src/dynamic_graph/sot/core/meta_tasks.py:40-82", "src/task/gain-adaptive.cpp:103-174", "src/task/gain-hyperbolic.cpp:62-104", "src/feature/feature-point6d.cpp:174-352", "src/task/task.cpp:148-313", "src/tools/device.cpp:414-476"]}
{"id": "C149", "title": "Bounds that rounding does not spoil", "statement": "A rounding to the nearest double keeps the order, whatever it does with ties. With any rounding that keeps the order: the error of the joint-limit feature of a joint between its limits is in [-1,1], exactly -1 and 1 at the limits, and does not decrease with the position; the bounds of a unilateral task let a joint between its references stay where it is and never let one beyond a reference go further, and a robot that obeys them stays within its references up to the rounding of one period however long it runs (with doubles, references up to 15 and a period up to one second: 1e-13); the saturation of the admittance control holds exactly and a robot at rest under the force asked for stays at rest; the adaptive and hyperbolic gains never increase with the norm of the error and are never below their value at infinity.", "quantifier": "all roundings that keep the order (the rounding to the nearest double with any rule for ties), vectors, references, periods, velocities within the bounds, numbers of periods, gains and errors", "why_tests_cant": "Rounding errors depend on every digit of the inputs, and the statements hold for all inputs and arbitrarily long runs.", "anchors": ["src/feature/feature-joint-limits.cpp:90-183", "src/task/task-unilateral.cpp:58-76", "src/tools/device.cpp:414-476", "src/control/admittance-control-op-point.cpp:158-164", "src/task/gain-adaptive.cpp:103-174", "src/task/gain-hyperbolic.cpp:62-104"]}
{"id": "C150", "title": "Speed factor of the gripper with doubles", "statement": "With doubles the factor of a gripper with one joint stays between 0 and 1, does not increase in a period in which the torque is beyond its limit in the direction of the motion, and does not decrease in the others; with the offset of the constructor it is never zero and, whatever happened before, 80000 periods without push give the whole speed back. Expected, as with exact numbers, for every offset between 0 and 1; this fails: if (K+1) times the offset is less than K+1/2 and K divided by the offset is less than K+1/2 for some natural K (offsets below 1/2, between 2/3 and 3/4, ...), a gripper pushed for long enough keeps for ever a factor of at most K times the smallest double, pushed or not. With the offset 1/4, 538 periods (2.69 s) make the factor zero, and the reference is then the current position for ever.", "quantifier": "all roundings to the nearest double (any rule for ties), offsets, positions, torques, limits and histories of periods", "why_tests_cant": "The loss takes hundreds to tens of thousands of periods and depends on the smallest numbers of the format; the positive part is for all histories.", "anchors": ["src/tools/gripper-control.cpp:39-45", "src/tools/gripper-control.cpp:96-158", "src/tools/gripper-control.cpp:187-192"]}
{"id": "C151", "title": "Task on some components of a six-dimensional position, in closed loop", "statement": "The base of a robot is driven, through the hierarchy of tasks and the device in its one-integration mode, by one task on an operational point attached to the base, with a constant reference and a selection of components (as the Python function gotoNd sets). (a) Position only, either frame, any place of the point on the base: if the gain times the period times the first distance is at most 2 and the rate r (computed from these two numbers) is below 1, no step fails or is reported, the joints do not move, each period multiplies the squared distance of the point to its reference by at most r, and the whole pose of the base tends to a pose with the point on its reference. (b) The orientation is not held: if the lever arm from the base to the point is not along the way, the first period already turns the base; if it is, the base never turns and the way is multiplied by 1 - gain*period each time. (c) Orientation only: the origin of the base never moves and the rotation error is multiplied by 1 - gain*period each time, from any angle. (d) Any set of position axes, frame of the reference, point at the origin of the base: the selected coordinates of the way are multiplied by 1 - gain*period, the others and the orientation never change.", "quantifier": "all numbers of joints, initial states, references, gains, periods, thresholds below 1, numbers of steps; both frames for (a)-(c); all selections of axes for (d)", "why_tests_cant": "The behaviour over an unbounded number of periods, for every singular value decomposition and initial pose, and the limit of a sequence of poses that is not known in advance.", "anchors": ["src/feature/feature-point6d.cpp:174-278 (computeJacobian)", "src/feature/feature-point6d.cpp:292-352 (computeError)", "src/math/op-point-modifier.cpp:68-122", "src/dynamic_graph/sot/core/meta_tasks.py:84-99 (gotoNd)", "src/sot/sot.cpp:507-642", "src/task/task.cpp:148-313", "src/tools/device.cpp:40-65", "src/tools/device.cpp:414-476"]}
{"id": "C152", "title": "Following a posture that moves, in closed loop, with and without the derivative of the error", "statement": "A robot is driven by a stack with one posture task, in the one-integration mode of the device; the posture and its velocity are signals that change at each step, and the option withDerivative of the task is set or not. The run never fails. As long as no task is reported, the distance e_k of each moved joint to the posture of the instant satisfies e_{k+1} = (1 - gain*dt) e_k - m_k, where m_k is the move of the posture, minus dt times the velocity given if the option is set (closed form for all k); the other joints do not move. So: with the option and the right velocity the posture is followed as if it did not move; without it, a posture at constant speed is followed with a lag that tends to the move per step divided by gain*dt; in general the distance is bounded by the first one, reduced, plus the largest m divided by 1 - |1 - gain*dt|. Nothing is reported while the velocities of the formula are within the limit of the stack; a posture that is always too far for that limit is never followed: the robot stays and the task is reported at each step.", "quantifier": "all numbers of joints, postures and velocities as functions of time, active joints, selections, gains, periods, thresholds below 1, initial states, numbers of steps, with or without the option; with the checks of the bounds when the option is off", "why_tests_cant": "A test follows one trajectory for some steps with one gain; the lag, its limit and the bound hold for every reference signal, every decomposition and every number of steps.", "anchors": ["src/task/task.cpp:86-90 (withDerivative)", "src/task/task.cpp:214-250", "src/feature/feature-posture.cpp:73-103", "src/sot/sot.cpp:507-642", "src/tools/device.cpp:414-476"]}
{"id": "C153", "title": "A posture reached by a task with a derivative term, in closed loop", "statement": "A robot is driven by a stack with one TaskPD on a posture, in the one-integration mode of the device. The run never fails. As long as no task is reported, the distance e of each moved joint satisfies e_{k+1} = (1 - gain*dt) e_k - beta*dt (e_k - e_{k-1}), with no variation at the first step; the other joints do not move. If gain*dt > 0, |beta*dt| < 1 and gain*dt + 2 beta*dt < 2 the joints converge to the posture (if nothing is reported); if gain*dt + 2 beta*dt > 2, the task ends up reported, whatever the limit of the stack and the first distance. With gain, beta >= 0 and (gain + beta)*dt <= 1 nothing is ever reported if the first distance times gain + 2 beta is within the limit.", "quantifier": "all numbers of joints, postures, active joints, selections, gains, coefficients, periods, thresholds below 1, initial states and numbers of steps; with the checks of the bounds for (gain + beta)*dt <= 1", "why_tests_cant": "The behaviour depends on the roots of the recurrence, over an unbounded number of steps; a test that converges for one coefficient says nothing of the region of stability.", "anchors": ["src/task/task-pd.cpp:32-85", "src/task/task.cpp:148-313", "src/feature/feature-posture.cpp:73-86", "src/sot/sot.cpp:507-642", "src/tools/device.cpp:414-476"]}
{"id": "C154", "title": "A posture given by several features of one task, in closed loop", "statement": "A robot is driven by a stack with one task that has several posture features, for different joints. If gain*dt is between 0 and 2 (at most 1 when the device checks its bounds) and the velocity asked by the whole initial error is within the limit of the stack, no step fails or is reported. At the first step a moved joint is either brought nearer by the factor 1 - gain*dt or left where it is, according to what the first evaluation of the error of the task keeps; at each later step the distance of every moved joint is multiplied by this factor, so that with 0 < gain*dt < 2 they all converge to the posture. The other joints do not move. With two features of one joint each, the joint of the first does not move at the first step.", "quantifier": "all numbers of joints and of features, postures, active joints, selections, gains, periods, thresholds below 1, initial states and numbers of steps", "why_tests_cant": "The joints lost at the first evaluation depend on the sizes and the order of the features; a test that looks at the final posture does not see them, and a test with one feature loses none.", "anchors": ["src/task/task.cpp:148-313", "src/feature/feature-posture.cpp:73-138", "src/sot/sot.cpp:507-642", "src/tools/device.cpp:414-476"]}
{"id": "C155", "title": "Scripts of commands on stacks of tasks, by names", "statement": "A script creates tasks and gives the commands setSize, getSize, push, remove, up, down, clear, list and display to stacks, naming the tasks. When no task is deleted, no script fails, and each answer is the one of stacks that are lists of names: a name already taken, a name unknown or a push on a stack without size raises an exception and changes nothing; push adds the name at the end, remove takes the first occurrence away, up and down exchange it with its neighbour, and list and display give the names in order (list reads in Python as the tuple of the names). A stack is changed only by the commands given to it. After a task is deleted its name cannot be given to a new task; naming it in a command is undefined, and so is listing, displaying or clearing a stack where it is.", "quantifier": "all scripts, of any length, on any number of tasks and stacks", "why_tests_cant": "Names are resolved through a global pool shared by all stacks; the interleavings of creations, refusals and edits are unbounded, and the use of a deleted task goes unnoticed as long as the memory is not reused.", "anchors": ["src/sot/sot-command.h:27-171", "src/sot/sot.cpp:207-322", "src/factory/pool.cpp:40-63", "src/task/task-abstract.cpp:25-36"]}
{"id": "C156", "title": "Outputs of the joint trajectory entity", "statement": "Once a first trajectory is given by the command initTraj, the outputs position, com, zmp, waist and seqid are read at increasing dates, in any order and any number of times. All the readings of a date show the same point, and the entity plays one point for each date at which something is read: the one of the queue of points of C42. A date without reading is skipped without losing a point. When initTraj comes between two readings of one date they can show two different points.", "quantifier": "all trajectories with points of at least five values, all increasing dates, all sets and orders of readings", "why_tests_cant": "The number of orders and of subsets of the outputs that can be read is unbounded; a test that reads every output once per date does not see an output that would move the entity twice or lag behind.", "anchors": ["src/tools/joint-trajectory-entity.cpp:36-87", "src/tools/joint-trajectory-entity.cpp:206-225", "src/tools/joint-trajectory-entity.cpp:242-286", "src/tools/joint-trajectory-entity.cpp:300-307"]}
{"id": "C157", "title": "The causal filter is bounded and converges", "statement": "When the first coefficient of the denominator of the causal filter exceeds in absolute value the sum of the others, inputs within M give outputs within M times the sum of the absolute values of the numerator over the difference; and when the inputs converge, the output converges to the sum of the numerator over the sum of the denominator times their limit and its derivative to zero. For a denominator a0, a1, a2 with a0 positive it is enough that |a2| < a0 and |a1| < a0 + a2, for inputs that become constant. With the denominator (1, -2) one non-zero sample gives outputs that double for ever.", "quantifier": "all numerators, all such denominators of at least two coefficients, all bounded or convergent sequences of inputs, all lengths of history; doubles as reals", "why_tests_cant": "Boundedness and convergence are about infinite sequences of samples and all filters of a class; a test runs one filter for a finite time.", "anchors": ["src/filters/causal-filter.cpp:36-55", "src/filters/causal-filter.cpp:57-104"]}
{"id": "C158", "title": "The FIR filter over many samples", "statement": "After any proper history of the commands setSize and setElement and of samples, a filter of vectors gives, for samples within M, results within M times the sum of the gains of the coefficients (absolute values of numbers, norms of matrices); when the same sample comes again and again the result is exactly the sum of the products of the coefficients and the sample as soon as there are as many of these samples as coefficients; when the samples converge the results converge to the sum of the coefficients times the limit. A filter of scalars with the only coefficient one, that receives the sample one again and again, has results that grow without bound, however many work buffers the signal uses in turn.", "quantifier": "all proper histories, all coefficients (numbers or matrices), all sequences of samples, any number of work buffers with any contents (zeros for the last part); doubles as reals, for exact settling with any product", "why_tests_cant": "Bounds and limits are about all coefficients and infinite sequences of samples; a test of a few samples from a new filter does not see the growth of the result of the scalar filter.", "anchors": ["include/sot/core/fir-filter.hh:32-68", "include/sot/core/fir-filter.hh:164-193", "src/matrix/fir-filter.cpp:54-67"]}
{"id": "C159", "title": "Scripts of commands on the features of tasks, by names", "statement": "A script creates and deletes features and gives the commands add, clear, list, setWithDerivative and getWithDerivative to tasks. Each answer is the one of a specification where a task holds a list of names: add puts the name at the end, even if it is there already, and throws for a name never created; a name stays taken after the feature is deleted; list gives the names in the order of the additions, as text that Python reads as this list. The behaviour is undefined exactly when a deleted feature is added, or when a task that holds a deleted feature is listed or cleared; without deletions it is always defined.", "quantifier": "all scripts of any length, all names, any number of tasks", "why_tests_cant": "The scripts are unbounded sequences of commands over unbounded sets of names, and the failures depend on a deletion that came long before.", "anchors": ["src/task/task.cpp:68-131", "src/task/task-command.h:34-44", "src/factory/pool.cpp:66-90", "src/feature/feature-abstract.cpp:66-68"]}
{"id": "C160", "title": "The exponential moving average follows its input", "statement": "With a weight set once, the average after N inputs equal to u is u minus the N-th power of the weight times u; after N + 1 inputs 0, v, ..., N v it is (N - (a - a^(N+1)) / (1 - a)) v for a weight a other than one. With a weight below one in absolute value, when a component of the inputs converges the same component of the average converges to the same limit. With a weight of absolute value at least one, which the command setAlpha accepts, the average of an input that does not change never comes nearer to it than zero is.", "quantifier": "all weights, all sizes of inputs, all numbers of inputs, all convergent sequences; doubles as a field or as reals", "why_tests_cant": "The convergence is about infinite sequences and all weights; a test shows that a few averages approach the input for one weight.", "anchors": ["src/tools/exp-moving-avg.cpp:38-39", "src/tools/exp-moving-avg.cpp:61-79"]}
{"id": "C161", "title": "After a change of filter, the causal filter is a new filter", "statement": "A change of filter after any history succeeds, and the outputs and derivatives that follow are those of a new filter with the new coefficients after a first sample. This sample is the input of m - 1 steps before the latest, m being the number of coefficients above of the old filter, or the first input when there are not so many. When the first coefficient below of the new filter exceeds the sum of the absolute values of the others, bounded inputs therefore give outputs within the bound of the new filter, and inputs that converge give outputs that converge to its steady value and derivatives that converge to zero, even when the old filter is unstable.", "quantifier": "all coefficients (at least one above; two below before the change and three after it; first coefficients not zero), all histories before the change, all finite histories and all convergent sequences after it; doubles as a field or as reals", "why_tests_cant": "The equality is for all histories before and after the change and all coefficients; a test changes the filter once, after one history.", "anchors": ["src/filters/causal-filter.cpp:57-104", "src/filters/causal-filter.cpp:106-134"]}
