# Formal model of sot-core in Lean 4: design

## 1. Layout

* `properties.jsonl` – the English properties C01, C02, ...
* `lean/Verif/<Area>/Model.lean` – the model of one source file (or a few); each
  definition cites the file and lines of `/repo` it models and says where it simplifies.
* `lean/Verif/<Area>/Spec.lean` (when needed) – the independent specification used in statements.
* `lean/Verif/<Area>/Lemmas.lean` (when needed) – helper lemmas.
* `lean/Verif/<Area>/Props.lean` – the property theorems, named `Cnn_...`, each followed by an
  `example` showing that its hypotheses are met by a concrete non-trivial case.
* `MANIFEST.json` – property -> theorem names and status.
* `seeded/LOG.jsonl` – log of deliberately wrong edits of the model and which theorems caught them.

## 2. Conventions

* **Undefined behaviour.** A C++ operation that can have undefined behaviour (out-of-range
  `operator()`/`operator[]`, `pop_back` on an empty list, division by an integer zero, null
  dereference, read of an uninitialised member) returns the outcome `UB`, different from an
  exception and from a normal return. Properties must show that it is not reached, or name the precondition.
* **Exceptions** are a separate outcome (`throw`), and the state left behind is part of the model.
* **Numbers.** `double` is modelled by the reals (or by any ordered field, or by `Int` where only
  text round trips matter). Overflow and infinities are not modelled. Rounding is modelled in
  `Verif.Rounding` only: there the definitions of other areas, which ask only for the operations that the
  code does, are read with numbers that every operation rounds (C129 to C133). NaN is modelled
  only in the device model, where the code tests for it. `int`/`unsigned` are modelled by
  `Int`/`Nat`, or by `BitVec 32` where wrap-around matters (motion period).
* **Signals.** dynamic-graph itself is a dependency and not modelled. A signal read is an argument
  of the modelled function. Output buffers keep their previous content, so functions that write
  into `res` take "any previous content" as an argument.
* **Properties that are false of the code.** The negation is proved on a concrete witness
  (`..._counterexample`/`..._false`), and the strongest correct part is proved with the suffix `_partial`.

## 3. Plan per property

| id | model | proof |
|----|-------|-------|
| C01-C04 | `Flags`: list of Bool + default bit, one function per operator; streams as `List Char` | case analysis on lengths, list induction |
| C05-C06 | `MultiBound`: the record with mode and setup bits; printer and parser over `List Char` | refinement to an abstract history reading; induction on the vector |
| C07-C08 | `Sot` stack: list of task names + dependency list, one step per command | refinement to list operations; invariant by induction over command lists |
| C09-C13 | `Sot` control law over real matrices; the SVD is an oracle described by its specification | invariant over the level loop (Mathlib `Matrix`) |
| C14-C17 | `Task`: buffer-growing loop as a recursive function; PD memory | loop invariants |
| C18-C20 | `TaskUnilateral`, `GainAdaptive`, `GainHyperbolic` over the reals | real analysis |
| C21 | `MatrixSvd` over real matrices with SVD given by specification | matrix algebra |
| C22-C26 | `Device`: record of vectors, commands and `integrate`; component reads can be UB | invariant over command lists |
| C27 | `PeriodicCall`: sorted association list | induction |
| C28 | `Event`: state machine | refinement to history predicate |
| C29 | `Mailbox`: small-step interleaving of lock-protected sections | invariant over all schedules |
| C30-C31 | `FirFilter`: circular buffer with start index and count | refinement to the list of samples |
| C32 | `CausalFilter`: rolling buffers | refinement to the sample history |
| C33-C34 | `ExpMovingAvg`, `Derivator`, `Integrator` | induction |
| C35-C40 | `GripperControl`, `ClampWorkspace`, `NeckLimitation`, `JointLimitator`, `CoMFreezer`, `SmoothReach` | case analysis, induction over histories |
| C41-C42 | `Reader`, `JointTrajectory` | refinement to list replay |
| C43-C44 | `RobotUtils` | permutations, finite maps |
| C45-C47 | `Pool`, `Variadic`, `Switch` | invariants over histories |
| C48-C49 | `Operators` | list lemmas |
| C55-C57 | `Geometry` over real 3x3 / 6x6 matrices | matrix algebra |
| C58, C88 | `Kalman` | matrix algebra (Joseph form), completion of squares |
| C59, C89 | `Madgwick` | real algebra, induction, `HasDerivAt` of the misalignment |
| C60, C90 | `Admittance` | case analysis, induction |
| C61, C91 | `StopWatch` | induction |
| C63-C72 | further parts of the models above (see `MANIFEST.json`) | as for the parts they extend |
| C73-C74 | `RobotUtils`: velocity and base conversions | rotation algebra; `atan2` as the argument of a complex number |
| C75-C77 | `RobotUtils/TablesModel`: property tree traversal, registry, limits | mutual structural induction; invariants over histories |
| C78 | `Pool`: `writeGraph` over characters | list lemmas |
| C79-C80, C82 | `Operators` | list lemmas, induction over histories |
| C81 | `Geometry/Convert`: Eigen's conversions between rotation matrices, quaternions, axis-angle, Euler angles | polynomial identities of rotations |
| C50-C53, C83 | `Features`: generic, posture, joint-limit and one-dimensional features | loop lemma on selected positions, induction over histories, `HasDerivAt` |
| C54, C84-C87 | `Spatial`: visual point, projecter, direction, line distance | `HasDerivAt` along motions of a frame with a body twist, polynomial identities |
| C93-C97 | `Point6d`: six-dimensional position features and the pose feature; rotation vectors of rotations; pinocchio's Lie group operations by specification | derivative of the rotation vector along body twists, right Jacobian, exponential decay of solutions of scalar differential inequalities |
| C98-C99 | `TrajText`: Boost regular expressions as ordered lists of matches, the loops of the trajectory parser with a distinct outcome for runs that do not end | structural induction on texts, strong induction on the length |
| C100 | `TaskConti`: the outcomes include the end of the program | case analysis, limits of the exponential |
| C101 | `MotionPeriod`: unsigned difference modulo 2^32 | trigonometry |
| C102 | `Reference`: dependency lists of the outputs of a feature | invariants over histories of references |
| C103 | `Control`: outputs of both controllers for lists | componentwise; Lyapunov function for the exponential decrease |
| C104 | `Timing`: clock readings, caches of the signals | field arithmetic, induction over reads |
| C105 | `ParamServer`: property trees, robots, servers | induction on paths, invariants over histories |
| C106 | `Loader`: members and log of the calls | invariant over histories of calls |
| C107 | `Differentiator`: entity around the causal filter, caches of its signals | reduction to C32; induction over times and outputs read |
| C108 | `Tail`: reader of a growing file | induction over lines and histories |
| C109 | `KernelMem`: buffers of the projectors, heap | invariant; refinement of the memory-free projectors |
| C110 | `Homogeneous`: operators on transformations, products, norms | block matrices, Mathlib inverses and Euclidean norm |
| C111 | `MatrixUtil`: angles, Gram-Schmidt and quaternions of the Python library | trigonometry, estimates in the band around the poles |
| C112 | `Calendar`: registration and runs with functions that change the calendar | induction on the loops over positions |
| C113 | `ThreadLoop`: interleavings of the script and of the loop | invariants of the steps, bounds on the steps to the end |
| C114 | `Posture`: the limbs and `gotoq` of the posture task | induction on the limbs, finite table checked entirely |
| C115 | `MetaTask`: operational point modifier, references, gains, goals | invariant of the assignments, case analysis on the form of the argument |
| C116 | `History`: records, restoration, files | induction on the execution, multiples of the period |
| C117 | `Errors`: the exceptions and the places that throw them | relation between formats and texts, equivalence with the expansion |
| C118 | `Debug`: the traces and their files | simulation of a journal by the code, induction on the statements |
| C119 | `Texts`: lists, displays and graphs as texts | reading of the texts, lines, counting of the braces |
| C120 | `Depend`: the outputs with the inputs that they declare, caches of one output and of a graph | invariant of the cache, equivalence with dependence on the declared inputs alone; witnesses for the forgotten inputs |
| C121 | `Small`: triggers of the periodic caller, setflag, constants, sign bit, Windows clock | induction on readings and commands; characterisation of the texts accepted; arithmetic modulo 2^32 and 2^64 |
| C122 | `Viewer`: log files on a disk, methods of a class of robots replaced, states and names sent | invariant of the log over the calls; nested calls with fuel, endless when installed twice |
| C123 | `PyFeature`: constructors of the Python features over the features of `Point6d` | composition with C93 and C96 |
| C124 | `Loop`: the models of the posture feature, the task, the stack and the device connected | the Jacobian selected is a partial isometry, so the control is its transpose applied to the error; induction on the steps; limits of powers |
| C125 | `Sot/Feasible`: the model of the stack | invariant of the loop: the control so far is orthogonal to the directions left, which contain what remains to be done; an increment is a projection of it |
| C126 | `Loop/Stack`: tasks given by functions, connected to the stack and the device | C125 at each step, geometric sums, limits |
| C127 | `ParamServer/Tables`: the tables of `RobotUtils` in the robots of the servers | an observation of the tables is kept by the commands that do not set it; induction on the commands |
| C128 | `TaskEdit/{Model,Props}` | invariant on histories of commands (`Exact`), then `C120_iff` on the outputs of the state reached; events of editing, setting and asking with the cache of `Depend` |
| C129 to C133 | `Rounding/{Model,Device,Limiter,Regulator,Filters,Clock}` | the models at `Fl r`, the numbers kept by a rounding `r` with error `u \|x\| + η`; the rounding of `double` (`binary64`) is built and shown to be one; simulation with the exact run, errors by induction over the steps (geometric sums for the regulator and the average) |
| C134 | `Wiring` | graph of entities as finite maps, one explicit equation per constructor and setter, frame lemma, induction over scripts; names as lists of characters, so that collisions are part of the statement |
| C135 | `Loop` | gain entity per task composed with the closed loop; induction on the product of the factors; stop by a discrete crossing argument (a step at the limit cannot jump over the band) |
| C136 | `Sot` | orthogonality of the increments for the sum; each increment at most its error divided by the threshold; three runs in parallel for the linearity; one joint for the jumps |
| C137 | `Sot`, `Common.SvdUnique` | functions of the squared singular values are functions of the Gram matrix, hence unique; simulation between two runs whose kernels are equal up to an orthogonal matrix |
| C138 | `ParamServer/Getter.lean`: the servers with the robot that each added command reads | the getter of a server is kept by all the steps |
| C139 | `Quaternion`: conversions, and products in a memory of objects | polynomial identities modulo the relations of rotations; half turns by cases of the code |
| C140 | `Se3` (exponential and logarithm of the rigid motions), `Device/FreeFlyer` (`ff` instantiated, `ffPose_`) | the exponential solves the kinematics, uniqueness by a motion with null velocity; one-parameter group for the subdivision; angles back and forth by C81 |
| C141 | `Point6d/PoseSe3`, `Se3/Jlog`: the pose feature with SE(3): logarithm of the relative motion, its Jacobian by pinocchio's blocks | derivative of the logarithm along body twists by the product rule on the inverse left Jacobian; uniqueness of motions at constant velocity; exponential decay |
| C142 | `Loop/FreeFlyer`, `Se3/Bound`: pose task on the base, stack, device with the free-flyer | the logarithm is a fixed vector of its own derivative, so the only control of minimal length is the opposite of the error; conjugation of exponentials; bounds on the derivative of the logarithm for the threshold; induction on the steps |
| C143 | `Loop/WholeBody`: a pose task on the base among tasks of the joints, one stack, device with the free-flyer | the velocities split into a base part and a joint part, orthogonal to each other; the shortest control of the whole stack is the sum of those of the two kinds of tasks; induction on the steps for three loops at once |
| C144 | `Svd/Damped`: damped inverse entry by entry, zero over zero as a NaN that spreads | the decomposition diagonalises everything: sums over the singular values, Bessel's inequality for the right-hand side; rank counted by the nonzero singular values |
| C145 | `Loop/BaseTask`, `Loop/FreeFlyerR3`, `Se3/Turned`: pose task with the representation R3xSO3 on the base, stack, device with the free-flyer | any task of six components on the base reduced to a regular linear system; the position error in the desired frame follows a recursion by polynomials of a cross product, whose length is a mixture of two factors; a quarter of a turn by Jordan's inequality; squeeze for the limit |
| C146 | `Mailbox/Signals`: the three outputs, their caches and their two buffers, posts that start and end | invariant: every output shows the message or will compute it again; induction on the rounds; the losses for all later dates by a state that does not change |
| C147 | `Loop/FreeFlyer6d`: task of a six-dimensional position with the modifier of the operational point, both frames, stack, device with the free-flyer | the reduction and the recursion of C145; in the current frame the Jacobian has a determinant one and its velocity gives the same recursion for the position error seen from the other side; the two frames share three invariants (lengths of the two parts and the square of their product) |
| C148 | `Loop/Adaptive6d`: the loop of C147 with a gain entity plugged on the error of the task | each step is a step of C147 with the gain of that error; recursion with factors that change, squeezed between the two bounds |
| C149 | `Rounding/{Monotone,Kept}`: roundings to the nearest double (any rule for ties) keep the order | the bounds follow from the order alone; the unilateral task by the error of one period, which the next period corrects |
| C150 | `Rounding/Gripper`: the model of the gripper at the numbers of a rounding to the nearest double | descent and release between multiples of the smallest double; exact powers of 4 for the offset 1/4; growth by 1% per free period for the default offset |
| C151 | `Loop/Part`, `Loop/Position`, `Loop/Orientation`: the loop of C147 with any selection of components | the shortest velocity that moves the point (a combination of the rows); bound of the distance after a screw motion; geometric Cauchy sequence for the rest |
| C152 | `Loop/Moving`, `Loop/Tracking`: the loop of C124 with signals that change and the option `withDerivative` | induction on the steps with the closed form of the recurrence; bound and limit from the geometric sequence |
| C153 | `Loop/Pd`, `Loop/PdProps`, `Loop/Second`: the loop of C124 with the `TaskPD` of C17 | induction on the steps; the recurrence of order two split on its complex roots |
| C154 | `Loop/Parts`, `Loop/PartsProps`: the loop of C124 with several posture features in one task, from a new buffer | induction on the steps after the first; the buffer has its final size after one evaluation |
| C155 | `Script`: scripts of commands by names, over the pool of C45, the stack of C07 and the texts of C119 | simulation of lists of names, by induction on the script; the deletion from the state the simulation gives |
| C156 | `JointTraj/Signals`: the outputs of the entity of C42 with their caches | invariant on the dates of the caches, then the refinement of C42 |
| C157 | the difference equation of C32 along infinite sequences; strong induction for the bound, a window contraction for the limit, the triangle of C153 for order two |
| C158 | the invariant of C30 along the samples, with the work buffers of the signal in turn; limits by induction on the coefficients |
| C159 | refinement of the features by ranks in the pool to lists of names, deletions and undefined behaviour included |
| C160 | closed forms by induction from the weighted sum of C33; the contraction of C157 with a window of one for the limit |
| C161 | the column about to be overwritten is followed along the history; two filters with the same histories give the same results; then C157 |
| C62, C92 | `Sequencer` | induction; the code's play flag is never raised, so the property is expected to be false |

## 4. Trusted base

* Lean 4.33.0 kernel; axioms at most `propext`, `Classical.choice`, `Quot.sound`. `AXIOMS.md` lists the set of each theorem of the manifest.
* The correspondence between the Lean definitions and the C++ text, which is by reading: nothing is
  compiled or run.
* Eigen, pinocchio, Boost and dynamic-graph are represented by the mathematical meaning of the operations used.

## 5. What is modelled, what is not, and what disagrees

`COVERAGE.md` gives, for each source file, the areas that model it, the lines cited by definitions and the lines of code that no definition
cites.

### Not modelled

* **Plumbing of dynamic-graph.** Constructors that only name and register signals, `addCommand` with documentation strings, the factory
  macros, `CLASS_NAME`, `getDocString`, the Python bindings (`*-python.h`, `src/tools/robot-utils-py.cpp`,
  `src/dynamic_graph/sot/core/math_small_entities.py`) and the explicit instantiations of templates (`src/matrix/operator.cpp`, `*-impl.hh`,
  `src/matrix/derivator.cpp`, ...). The commands themselves are modelled as functions. The dependencies that the constructors declare are
  modelled in `Depend` and `Reference`, with the caching rule of dynamic-graph written as an assumption in the header of `Depend/Model.lean`.
* **Declarations.** Class bodies in `include/sot/core/*.hh` are cited only where they give initial values, constants or code.
* **Files that are not compiled or are empty.** `src/math/vector-quaternion.cpp` is in no target; `src/signal/signal-cast.cpp`,
  `src/factory/factory.cpp` and `src/math/matrix-rotation.cpp` hold no code.
* **Interfaces without behaviour.** `abstract-sot-external-interface.hh`, `task-abstract.hh`, `feature-task.*`, `robot-simu.*`.
* **Libraries.** Floating-point rounding outside `Rounding`, Eigen's aliasing, the series that pinocchio uses near zero for the exponential and the logarithm of SE(3), Boost's regular expressions (`TrajText` models what the
  given expressions accept), Boost's XML reader and writer, the clock, signals of the operating system and the file system beyond open, read and
  seek. The Eigen text format of vectors and matrices is an argument where a display uses it.
* **Threads** are modelled only where the code has them: the mailbox (single memory accesses), the Python loop thread, the loader.

### Disagreements between the code and what it announces

Those that contradict a property are counterexample theorems named in `MANIFEST.json`. Found while reading and not (or not only) stated there:

* `FeaturePoint6d`: `errordotSOUT` does not depend on the velocity of the reference. `FeatureJointLimits`: `jacobianSOUT` depends only on the
  selection. `FeaturePoint6dRelative`: `errordotSOUT` is wired to the inherited function, its own `computeErrorDot` is dead code with a wrong sign.
* `Kalman`: `varianceUpdate` does not depend on the measure matrix and its variance; the dependencies are added only when asked at time 0.
* `AdmittanceControlOpPoint`: `w_force` depends only on the force; the damping is not multiplied by the period; the header announces a saturation of the
  output, the code saturates the integrated value.
* `ParameterServer`: `init_simple` marks the server initialised before it checks the robots (C105); called twice it registers its command twice; the
  getter of the mapping keeps the first robot; `convertJointNameToJointId` and `isJointInRange` are never called.
* `SotLoader`: `throw e;` slices the exception; `cleanUp` does not clear the error of the dynamic linker first; the destructor calls `cleanUp` again.
* `FilterDifferentiator::init` loses the previous filter without freeing it.
* `Sot`: `push` accepts a task already in the stack (C109); a rejected first level without projector stops the resolution (C12); the assertion of the
  accelerated posture reads a posture that may be null.
* Python: `Calendar.__repr__` calls `iteritems`; `restart` of the thread loop calls a missing function; the viewer patches a class twice when asked twice
  and then recurses for ever; the keep command of the relative feature writes only the other frame.
* `PeriodicCallEntity`: protected inheritance and no command, so that no script can fill it. `setflag`: the help announces a syntax the parser refuses.
* A fixed-base robot whose control has the size of its state has its first six joints integrated as a free-flyer.
* The device stores the orientation of its base as angles of which the yaw is never negative: with the checks on and bounds on the angles below half a turn, a base at rest with a negative yaw is turned at the first increment. `freeFlyerPose` is written before the bounds cut the state.
* `VectorToRotation`, `GripperControl`, `NeckLimitation` and `CoMFreezer`: see C57, C35, C37, C39.
