# Which lines of the code are modelled

Generated from the citations in the Lean files. A line counts as code when it is not empty, not a comment, not a preprocessor
line, not a `using`, `namespace` or access line and not a lone brace; 7301 of the 12364 lines of code of `src` and `include` are cited by a
definition. What the other lines are, and what they would add, is in section 5 of `DESIGN.md`: they are mostly declarations repeated by the
definitions that are cited, the registration of signals and commands with their documentation, and the instantiations of templates.

## Files with modelled lines

| file | areas | modelled lines | lines of code not cited | cited / code |
|------|-------|----------------|-------------------------|--------------|
| include/sot/core/admittance-control-op-point.hh | Admittance | 109-119 | 59-107, 121-125 | 5 / 27 |
| include/sot/core/causal-filter.hh | Causal | 68-86 | 45-65, 87-89 | 11 / 23 |
| include/sot/core/clamp-workspace.hh | Clamp | 75-96 | 47-72, 99-100 | 18 / 37 |
| include/sot/core/contiifstream.hh | Tail | 37-42, 47-50, 56 | 35, 44-46, 52-55, 57-61 | 10 / 20 |
| include/sot/core/control-pd.hh | Control | 80-81 | 46-79, 82-89 | 2 / 31 |
| include/sot/core/debug.hh | Debug | 27-34, 40, 42-48, 50-53, 55-58, 99-132, 163-190 | 38, 60-97, 136-159, 194-204 | 63 / 111 |
| include/sot/core/derivator.hh | Memory | 43-45, 76-90 | 38-40, 46-73, 93-112 | 16 / 59 |
| include/sot/core/device.hh | Device | 34-39, 41, 59-78, 121-122 | 47-56, 81-117, 123-181 | 23 / 76 |
| include/sot/core/event.hh | Event | 49-51, 103-105, 118-119 | 42-48, 52-100, 108-116, 121-122 | 7 / 57 |
| include/sot/core/exception-abstract.hh | Errors | 24-25, 36-120, 122-123 | 127-133 | 46 / 49 |
| include/sot/core/exception-dynamic.hh | Errors | 33-42 | 29, 44-58 | 8 / 19 |
| include/sot/core/exception-factory.hh | Errors | 33-46 | 29, 48-61 | 12 / 23 |
| include/sot/core/exception-feature.hh | Errors | 33-37 | 29, 39-54 | 4 / 15 |
| include/sot/core/exception-signal.hh | Errors | 33-43 | 29, 45-59 | 9 / 20 |
| include/sot/core/exception-task.hh | Errors | 33-40 | 29, 42-55 | 7 / 18 |
| include/sot/core/exception-tools.hh | Errors | 33-40 | 29, 42-54 | 6 / 16 |
| include/sot/core/exp-moving-avg.hh | Memory | 50-53 | 33-48, 56-57 | 3 / 14 |
| include/sot/core/feature-1d.hh | Reference | 115 | 48-110, 119-120 | 1 / 17 |
| include/sot/core/feature-abstract.hh | Reference | 230-231, 234, 251-263 | 76-229, 236-248, 264-287 | 13 / 81 |
| include/sot/core/feature-generic.hh | Reference | 126 | 56-121, 130-131 | 1 / 19 |
| include/sot/core/feature-joint-limits.hh | Reference | 76 | 46-66, 80-99 | 1 / 25 |
| include/sot/core/feature-point6d.hh | Point6d, Reference | 59, 83 | 49-55, 60-75, 87-126 | 2 / 42 |
| include/sot/core/feature-pose.hxx | Depend, Loop, Point6d, Se3 | 66-76, 78-88, 112-120, 122-135, 137-146, 148-203, 205-213, 215-229, 231-247, 252-270, 272-302, 307-318 | 30-65, 77, 89-111, 320-344 | 160 / 217 |
| include/sot/core/feature-posture.hh | Features, Loop | 73-75, 79-80 | 49-71, 76, 81-83 | 5 / 25 |
| include/sot/core/feature-visual-point.hh | Reference | 68 | 46-62, 71-89 | 1 / 22 |
| include/sot/core/filter-differentiator.hh | Differentiator | 66-68, 86-90 | 58-64, 83, 93-123 | 6 / 24 |
| include/sot/core/fir-filter.hh | Fir | 34-61, 64-68, 122-126, 164-175, 177-181, 187-189, 193, 200-201 | 31-32, 62, 69-118, 127-162, 183-184, 191, 196-197, 202-244 | 48 / 154 |
| include/sot/core/flags.hh | Flags | 33-36 | 39-66 | 3 / 23 |
| include/sot/core/gain-adaptive.hh | Gain | 68-72, 79-80 | 53-63, 73-78, 81-130 | 6 / 33 |
| include/sot/core/gain-hyperbolic.hh | Gain | 66-71, 82 | 53-63, 73-81, 89-102 | 5 / 31 |
| include/sot/core/gripper-control.hh | Gripper | 58-61 | 56, 64-138 | 3 / 47 |
| include/sot/core/integrator-abstract.hh | Euler | 87-92, 120-121 | 45-84, 94-116, 124-125 | 7 / 57 |
| include/sot/core/integrator-euler.hh | Euler | 64-75, 97-103, 106-151, 153-162, 164-167, 171-197 | 31-55, 77-94, 169, 200-201 | 70 / 99 |
| include/sot/core/joint-trajectory-entity.hh | JointTraj | 123-149 | 47-120, 152-162 | 9 / 45 |
| include/sot/core/kalman.hh | Kalman | 57-64, 146-149, 151-154, 159 | 46-54, 65-144, 163-192 | 14 / 103 |
| include/sot/core/latch.hh | Memory | 42-57, 68 | 33-41, 60-67, 69-81 | 12 / 37 |
| include/sot/core/madgwickahrs.hh | Madgwick | 58, 119-127 | 85-117, 129-131 | 4 / 22 |
| include/sot/core/mailbox.hh | Mailbox | 64-67 | 36-61, 69-83 | 4 / 31 |
| include/sot/core/mailbox.hxx | Mailbox | 22-36, 49-55, 60-74, 77-87, 89-94, 96-102 | 21, 39-48, 59, 88, 95, 103-119 | 46 / 67 |
| include/sot/core/matrix-geometry.hh | Geometry, Homogeneous | 74-75, 78, 88-100 | 30-72, 76-77, 79-86, 102-103 | 14 / 54 |
| include/sot/core/memory-task-sot.hh | KernelMem | 39, 41-51, 65 | 25-38, 58-63, 68-69 | 9 / 24 |
| include/sot/core/motion-period.hh | MotionPeriod | 56, 58-64 | 50-53, 66-86 | 7 / 21 |
| include/sot/core/multi-bound.hh | MultiBound | 35-44 | 47-80 | 8 / 33 |
| include/sot/core/neck-limitation.hh | Limits | 58-65 | 52-55, 66-87 | 5 / 24 |
| include/sot/core/parameter-server.hh | ParamServer | 105-116, 118-127, 137-139 | 56-101, 131-134, 140-156 | 20 / 56 |
| include/sot/core/periodic-call-entity.hh | Small | 63-64 | 56-61, 66-79 | 2 / 14 |
| include/sot/core/periodic-call.hh | Periodic | 39-55, 78 | 37, 57-76, 80-84 | 12 / 29 |
| include/sot/core/pool.hh | Pool | 81-85 | 38-72, 90-128 | 2 / 20 |
| include/sot/core/reader.hh | Reader | 75-81 | 59-73, 83-92 | 5 / 22 |
| include/sot/core/robot-utils.hh | ParamServer, RobotUtils | 34, 54-55, 63, 70-77, 115-299 | 30-32, 36-53, 56-61, 65-68, 79-113, 301-310 | 91 / 136 |
| include/sot/core/sequencer.hh | Sequencer | 58-74, 77-87, 93-103 | 52-55, 89-91, 105-109 | 28 / 38 |
| include/sot/core/sot-loader.hh | Loader | 50-73, 94-97 | 47, 77-91, 100-128 | 10 / 30 |
| include/sot/core/sot.hh | Sot | 67-76 | 57-64, 80-204 | 3 / 39 |
| include/sot/core/stop-watch.hh | StopWatch | 47-52, 148-207, 214-244, 246-254 | 41-44, 147, 210, 257 | 43 / 49 |
| include/sot/core/switch.hh | Variadic | 33, 65-78 | 21-32, 34-62, 80-81 | 12 / 43 |
| include/sot/core/task-conti.hh | TaskConti | 52, 54-56, 65 | 50, 59-63, 66-81 | 5 / 16 |
| include/sot/core/task.hh | Loop, Script, TaskEdit | 77-79, 108-113 | 72-74, 80-104, 116-123 | 8 / 32 |
| include/sot/core/time-stamp.hh | Timing | 77-80 | 54-75, 82-89 | 2 / 20 |
| include/sot/core/timer.hh | Timing | 88-125, 139 | 53-85, 128-138, 140-156 | 30 / 71 |
| include/sot/core/trajectory.hh | JointTraj, TrajText | 84-113, 115-120, 176-191 | 27-81, 122-171, 192-197 | 36 / 105 |
| include/sot/core/variadic-op.hh | Operators, Variadic | 44-51, 63-80, 82-87, 89-107, 109, 111-115, 118, 125-134 | 38-42, 53-61, 122, 135-178 | 50 / 89 |
| include/sot/core/vector-to-rotation.hh | Geometry | 47 | 44-46, 49-68 | 1 / 16 |
| src/control/admittance-control-op-point.cpp | Admittance, Depend | 55-69, 72-77, 80-104, 106-109, 114-134, 136-192 | 28-50, 199-208 | 102 / 118 |
| src/control/control-gr.cpp | Control | 88-123 | 13-85 | 17 / 47 |
| src/control/control-pd.cpp | Control, Depend, Rounding | 36-50, 84-107, 109-115, 117-122 | 23-35, 51-77 | 44 / 66 |
| src/debug/contiifstream.cpp | Tail | 15-16, 20-47, 49-53 | 18 | 27 / 28 |
| src/debug/debug.cpp | Debug | 24-42, 47-61 | 19-21, 44-45, 62-63 | 17 / 23 |
| src/dynamic_graph/sot/core/feature_position.py | PyFeature | 31-45, 48-54, 56-62, 68-75, 95-96 | 11-29, 64-66, 77-93 | 38 / 71 |
| src/dynamic_graph/sot/core/feature_position_relative.py | MetaTask, PyFeature | 14, 64-105, 114, 118-128, 158-159 | 17-62, 108-113, 115-116, 130-156 | 52 / 124 |
| src/dynamic_graph/sot/core/matrix_util.py | MatrixUtil | 31-33, 37-41, 49-71, 75-89, 92-97, 100-106, 110-122, 125-144 | 1-27 | 85 / 101 |
| src/dynamic_graph/sot/core/meta_task_6d.py | Loop, MetaTask, Wiring | 3-6, 24-29, 34-38, 40-46, 48-52, 54-67, 73-81, 91-96, 98-109 | 9-22, 31-32, 69-71, 83-89 | 62 / 83 |
| src/dynamic_graph/sot/core/meta_task_posture.py | Loop, Posture, Wiring | 13-35, 37-51, 59, 61-86, 89-93 | 12, 53-58 | 67 / 73 |
| src/dynamic_graph/sot/core/meta_task_visual_point.py | MetaTask | 19-26, 31-35, 104-115 | 10-17, 28-29, 37-102, 117-123 | 25 / 97 |
| src/dynamic_graph/sot/core/meta_tasks.py | Loop, MetaTask, Wiring | 18-20, 26-29, 40-96 | 11-17, 21-25, 30-36 | 56 / 71 |
| src/dynamic_graph/sot/core/meta_tasks_kine.py | Wiring | 12-30, 33-37 | none | 21 / 21 |
| src/dynamic_graph/sot/core/meta_tasks_kine_relative.py | MetaTask, Wiring | 10, 14-18, 20-30, 33-34, 52-70, 79-90, 96-124 | 12, 32, 35-50, 72-77, 127-157 | 77 / 122 |
| src/dynamic_graph/sot/core/utils/attime.py | Calendar | 14-25, 28-32, 45-46, 48-57, 59-74, 76-77, 79-81, 83-98, 106-133, 135-137 | 34-43, 100-104, 140-148 | 82 / 102 |
| src/dynamic_graph/sot/core/utils/history.py | History | 10-11, 20-24, 30-37, 39-94 | 8-9, 12-18, 25-28 | 70 / 83 |
| src/dynamic_graph/sot/core/utils/thread_interruptible_loop.py | ThreadLoop | 21-27, 33-34, 39-41, 45-46, 48-49, 52-63, 69-73, 110-117 | 20, 29-31, 36-37, 42-43, 50, 65-67, 75-108, 119-120 | 40 / 70 |
| src/dynamic_graph/sot/core/utils/viewer_helper.py | Viewer | 9-10, 13-23, 26-36, 39-80, 88-94, 96-98, 101-105 | 1-6, 87 | 66 / 72 |
| src/dynamic_graph/sot/core/utils/viewer_loger.py | Viewer | 16-21, 23-39 | 5-14 | 23 / 30 |
| src/exception/exception-abstract.cpp | Errors | 20, 22-28, 34-36, 44, 77-87 | 38-42, 51-67, 88-89 | 15 / 36 |
| src/exception/exception-dynamic.cpp | Errors | 21, 23-25, 27-41 | none | 15 / 15 |
| src/exception/exception-factory.cpp | Errors | 22, 24-29, 31-53 | none | 23 / 23 |
| src/exception/exception-feature.cpp | Errors | 21, 23-25, 27-41 | none | 15 / 15 |
| src/exception/exception-signal.cpp | Errors | 21, 23-25, 27-41 | none | 15 / 15 |
| src/exception/exception-task.cpp | Errors | 21, 23-25, 27-40 | none | 14 / 14 |
| src/exception/exception-tools.cpp | Errors | 21, 23-25, 27-40 | none | 14 / 14 |
| src/factory/additional-functions.cpp | Small | 27-56 | 23-25 | 23 / 25 |
| src/factory/pool.cpp | Errors, Pool, Reference, Script, Texts | 40-53, 55-63, 66-80, 82-90, 92-143, 147-156, 158-160 | 32-36, 145, 161-162 | 86 / 93 |
| src/feature/feature-1d.cpp | Depend, Features, Reference | 35-36, 45-46, 61-84 | 24-34, 38, 52-58, 90-97 | 21 / 40 |
| src/feature/feature-abstract.cpp | Depend, Errors, Features, Reference, Script | 24-50, 66-68, 83-86, 88-93, 95-123 | 22, 52-63, 70-80 | 57 / 78 |
| src/feature/feature-generic.cpp | Depend, Errors, Features, Reference | 37-38, 47-57, 63-76, 78-116, 118-136 | 23-34, 40, 142-149 | 62 / 77 |
| src/feature/feature-joint-limits.cpp | Depend, Features, Reference | 45-51, 69-70, 76-88, 90-104, 109-146, 151-183 | 30-44, 53-64, 185-186 | 71 / 93 |
| src/feature/feature-line-distance.cpp | Depend, Spatial | 42-47, 49, 67-89, 95-237, 242-277 | 26-41, 51-63, 279-280 | 169 / 188 |
| src/feature/feature-point6d-relative.cpp | Depend, Point6d, PyFeature | 51-52, 54, 74-110, 115-176, 188-232, 290-302 | 30-50, 56-64, 183-184, 234-283 | 123 / 181 |
| src/feature/feature-point6d.cpp | Depend, Loop, Point6d, PyFeature, Reference | 44-45, 63-75, 115-125, 130-141, 144-153, 158-169, 174-278, 292-352, 354-417, 419-476, 481-494 | 35-38, 47-62, 81-111, 281-286, 496-514 | 279 / 351 |
| src/feature/feature-posture.cpp | Depend, Features, Loop | 37-64, 73-150 | 21-35, 66-70, 152-154 | 75 / 95 |
| src/feature/feature-vector3.cpp | Depend, Spatial | 43-44, 46-48, 68-102, 107-126 | 27-42, 50-61, 128-129 | 47 / 65 |
| src/feature/feature-visual-point.cpp | Depend, Errors, Reference, Spatial | 38-43, 48-56, 62-73, 78-135, 140-160 | 23-36, 45, 162-178 | 74 / 98 |
| src/feature/visual-point-projecter.cpp | Spatial | 48-56, 58-72, 74-79 | 18-41, 85-90 | 24 / 46 |
| src/filters/causal-filter.cpp | Causal | 36-55, 57-104, 106-134 | none | 77 / 77 |
| src/filters/filter-differentiator.cpp | Differentiator | 58-87, 92-104, 106-114, 120-128, 136-161 | 20-53, 163-172 | 71 / 86 |
| src/filters/madgwickahrs.cpp | Madgwick | 44-56, 60-74, 77-81, 83-87, 89-95, 101-124, 134-144, 147-220 | 27-39, 57, 226-234 | 115 / 126 |
| src/math/op-point-modifier.cpp | Depend, Geometry, Loop, MetaTask | 29-42, 68-122 | 21-28, 43-65, 124-143 | 50 / 81 |
| src/math/vector-quaternion.cpp | Quaternion | 20-67, 69-82, 84-119, 121-127, 129-147 | 16-18 | 96 / 99 |
| src/matrix/double-constant.cpp | Small | 38-40 | 17-35, 42-43 | 2 / 18 |
| src/matrix/fir-filter.cpp | Fir | 54-67 | 18-52, 68-87 | 10 / 50 |
| src/matrix/matrix-constant-command.h | Small | 36-46 | 26-35, 47-51 | 8 / 19 |
| src/matrix/matrix-constant.cpp | Small | 25-30, 44, 53-56, 59-61 | 19, 31-43, 46-52 | 13 / 30 |
| src/matrix/matrix-svd.cpp | Svd | 12-26, 28-38, 40-56 | 58 | 33 / 34 |
| src/matrix/operator.hh | Geometry, Homogeneous, Operators | 65-76, 78-81, 83-90, 108, 112-119, 142-148, 185-191, 220-222, 226-228, 254-259, 261-264, 275-277, 279-282, 288-509, 553-556, 558-564, 566-572, 576-577, 584-590, 599-613, 649-658, 667-693, 698-702, 726-735, 786-790, 858-863, 867-876, 909-914, 916-921, 923-926, 946-953, 966-985, 992-1008 | 38-64, 92-106, 121-141, 151-183, 193-215, 225, 231-246, 266-271, 510-542, 574-575, 578-581, 593-598, 615-643, 661-665, 703-724, 736-785, 792-857, 864-866, 878-908, 928-944, 955-965, 988-990, 1011-1012 | 341 / 663 |
| src/matrix/vector-constant-command.h | Small | 34-43 | 26-33, 44-48 | 7 / 16 |
| src/matrix/vector-constant.cpp | Small | 24-28, 42, 51-54, 57-59 | 19, 29-41, 44-50 | 12 / 28 |
| src/matrix/vector-to-rotation.cpp | Geometry | 43-82 | 20-37 | 32 / 45 |
| src/sot/flags.cpp | Flags | 30, 32-49, 51-52, 54-59, 63-66, 69-78, 84-89, 91-95, 97-101, 103-123, 126-129, 131-150 | 152-153 | 82 / 84 |
| src/sot/memory-task-sot.cpp | KernelMem | 16-36 | 38 | 14 / 15 |
| src/sot/sot-command.h | Script, Texts | 27-171 | 26, 172-175 | 83 / 88 |
| src/sot/sot.cpp | KernelMem, Loop, Script, Sot, Texts | 62-67, 91-204, 207-322, 328-643, 648-657, 668-697 | 20-57, 68-90, 659-661 | 423 / 455 |
| src/task/gain-adaptive.cpp | Gain, Loop, Rounding | 27-29, 103-114, 133-146, 148, 166-174 | 25, 36-100, 154-160 | 30 / 91 |
| src/task/gain-hyperbolic.cpp | Gain, Loop | 62-74, 76, 96-104 | 24-59, 82-90 | 18 / 49 |
| src/task/multi-bound.cpp | MultiBound | 16-22, 24-30, 32-38, 48-128, 130-141, 146-168, 170-226, 228-236, 238-259 | 40-46, 261-262 | 180 / 189 |
| src/task/task-abstract.cpp | Script | 25-36 | none | 9 / 9 |
| src/task/task-command.h | Script, Texts | 34-44 | 26-33, 45-49 | 9 / 18 |
| src/task/task-conti.cpp | TaskConti, TaskEdit | 31-39, 41-96 | 25, 106-113 | 50 / 58 |
| src/task/task-pd.cpp | Loop, Task, TaskEdit | 34, 40-41, 45, 52-85, 94-95 | 26-33, 35-39, 43-44, 92 | 30 / 41 |
| src/task/task-unilateral.cpp | Rounding, Task, TaskEdit | 42-48, 58-76 | 26-41, 50-51, 82-83 | 23 / 38 |
| src/task/task.cpp | Errors, Loop, Script, Task, TaskEdit, Texts, Wiring | 34-66, 68-106, 108-142, 148-313, 319-327, 329-338 | 28 | 187 / 188 |
| src/tools/binary-int-to-uint.cpp | Small | 42-54 | 22-35, 56-57 | 9 / 20 |
| src/tools/clamp-workspace.cpp | Clamp, Geometry | 44-70, 76-175, 177-194 | 20-43, 72-73, 196-202 | 106 / 134 |
| src/tools/com-freezer.cpp | Freezer | 22-24, 46-79 | 18-21, 26-43, 81-82 | 25 / 44 |
| src/tools/device.cpp | Device, Loop, Rounding, Se3 | 40-65, 73-122, 220-239, 241-285, 287-290, 298-303, 305-310, 312-317, 319-327, 329-363, 365-379, 381-395, 397-412, 414-476, 479-491, 493-502, 504-553 | 34, 67-69, 126-216, 292-295, 557-566 | 288 / 379 |
| src/tools/event.cpp | Event | 11-33 | 35-37 | 18 / 21 |
| src/tools/exp-moving-avg.cpp | Memory | 38-39, 61-79 | 25-37, 41-55, 81-82 | 15 / 36 |
| src/tools/gradient-ascent.cpp | Memory | 52-67 | 25-46, 69-70 | 12 / 28 |
| src/tools/gripper-control.cpp | Gripper, Rounding | 39, 42, 44-45, 96-130, 132-158, 160-175, 187-192 | 23-37, 47-89, 180-184 | 55 / 104 |
| src/tools/joint-limitator.cpp | Limits, Rounding | 40-55, 57-85 | 19-37, 87-88 | 32 / 50 |
| src/tools/joint-trajectory-entity.cpp | JointTraj | 36-66, 72-73, 90-130, 132-204, 206-225, 227-240, 242-286, 300-307 | 13-34, 68-71, 75-87, 288-297 | 178 / 206 |
| src/tools/kalman.cpp | Depend, Kalman | 29-46, 73-116, 137-173 | 25-28, 48-70, 179-182 | 77 / 104 |
| src/tools/motion-period.cpp | MotionPeriod | 31-40, 46-74, 76-86 | 25, 88-106 | 38 / 55 |
| src/tools/neck-limitation.cpp | Limits | 23-35, 61-134 | 21, 37-54, 140-141 | 48 / 64 |
| src/tools/parameter-server.cpp | ParamServer | 55-59, 229-233, 235-239, 242-257, 265-317, 319-378, 383-398, 400-418 | 38-50, 60-226, 424-428 | 133 / 286 |
| src/tools/periodic-call-entity.cpp | Small | 43-51 | 24-40, 57-59 | 7 / 21 |
| src/tools/periodic-call.cpp | Periodic, Small | 32, 37-40, 50-55, 66-69, 74-81, 83-86 | 42-47, 57-63, 92-98 | 21 / 40 |
| src/tools/robot-utils.cpp | ParamServer, RobotUtils | 44-46, 57-65, 67-106, 133-152, 154-159, 164-169, 181-195, 229, 231-250, 252-256, 258-262, 264-268, 270-279, 281-301, 303-315, 317-334, 336-354, 356-367, 369-390, 392-400, 402-408, 444-468, 470-480, 482-503, 505, 507-519, 521-544 | 40-42, 48-54, 108-128, 161-162, 171-178, 197-225, 409-441, 545-546 | 266 / 344 |
| src/tools/sequencer.cpp | Sequencer | 23-37, 50-161, 167-176, 179-195, 198-209, 214-240 | 21, 39-43, 246-260 | 133 / 151 |
| src/tools/smooth-reach.cpp | Reach | 25-34, 62-77, 79-82, 84-104, 106-111 | 19-24, 36-59, 113-122 | 41 / 70 |
| src/tools/sot-loader.cpp | Loader | 33-39, 70-129, 131-163, 171-184, 186-208 | 41-67, 165-168, 210-211 | 88 / 115 |
| src/tools/time-stamp.cpp | Timing | 33-34, 37-43, 46-49, 70-80, 82-93 | 28-32, 35-36, 44, 50-63 | 32 / 47 |
| src/tools/timer.cpp | Timing | 45-79 | 28-42 | 24 / 36 |
| src/tools/trajectory.cpp | TrajText | 35-56, 73, 92, 99-124, 126-152, 154-194, 196-231, 233-266, 268-282, 286-290, 294-300 | 32-34, 59-72, 74-91, 93-96, 284, 292, 302-319 | 160 / 210 |
| src/tools/utils-windows.cpp | Small | 19-48 | none | 20 / 20 |
| src/traces/reader.cpp | Reader | 33-50, 56-178 | 27 | 99 / 100 |
| src/utils/stop-watch.cpp | StopWatch | 51-53, 57, 63-103, 105-121, 123-152, 154-173, 175-183, 196-212, 252-263, 265-273, 275-283, 285-293, 295-303, 305-313 | 46-48, 55, 59-60, 185-192, 214-249 | 104 / 144 |

## Files without modelled line

| file | lines of code |
|------|------|
| include/sot/core/abstract-sot-external-interface.hh | 29 |
| include/sot/core/additional-functions.hh | 7 |
| include/sot/core/binary-int-to-uint.hh | 11 |
| include/sot/core/binary-op.hh | 37 |
| include/sot/core/com-freezer.hh | 20 |
| include/sot/core/control-gr.hh | 22 |
| include/sot/core/derivator-impl.hh | 10 |
| include/sot/core/double-constant.hh | 9 |
| include/sot/core/factory.hh | 2 |
| include/sot/core/feature-line-distance.hh | 22 |
| include/sot/core/feature-point6d-relative.hh | 23 |
| include/sot/core/feature-pose.hh | 45 |
| include/sot/core/feature-task.hh | 9 |
| include/sot/core/feature-vector3.hh | 18 |
| include/sot/core/fir-filter-impl.hh | 10 |
| include/sot/core/fwd.hh | 4 |
| include/sot/core/gradient-ascent.hh | 14 |
| include/sot/core/integrator-abstract-impl.hh | 10 |
| include/sot/core/integrator-euler-impl.hh | 11 |
| include/sot/core/joint-limitator.hh | 17 |
| include/sot/core/macros-signal.hh | 76 |
| include/sot/core/macros.hh | 4 |
| include/sot/core/mailbox-vector.hh | 6 |
| include/sot/core/matrix-constant.hh | 14 |
| include/sot/core/matrix-svd.hh | 11 |
| include/sot/core/op-point-modifier.hh | 20 |
| include/sot/core/robot-simu.hh | 6 |
| include/sot/core/smooth-reach.hh | 28 |
| include/sot/core/task-abstract.hh | 18 |
| include/sot/core/task-pd.hh | 13 |
| include/sot/core/task-unilateral.hh | 13 |
| include/sot/core/unary-op.hh | 32 |
| include/sot/core/utils-windows.hh | 4 |
| include/sot/core/vector-constant.hh | 13 |
| include/sot/core/visual-point-projecter.hh | 18 |
| src/control/admittance-control-op-point-python.h | 2 |
| src/control/control-gr-python.h | 1 |
| src/control/control-pd-python.h | 1 |
| src/dynamic_graph/__init__.py | 1 |
| src/dynamic_graph/sot/core/math_small_entities.py | 53 |
| src/feature/feature-1d-python.h | 1 |
| src/feature/feature-generic-python.h | 1 |
| src/feature/feature-joint-limits-command.h | 14 |
| src/feature/feature-joint-limits-python.h | 1 |
| src/feature/feature-line-distance-python.h | 1 |
| src/feature/feature-point6d-python.h | 4 |
| src/feature/feature-point6d-relative-python.h | 5 |
| src/feature/feature-pose-python.h | 3 |
| src/feature/feature-pose.cpp | 13 |
| src/feature/feature-posture-python.h | 1 |
| src/feature/feature-task-python.h | 1 |
| src/feature/feature-task.cpp | 6 |
| src/feature/feature-vector3-python.h | 1 |
| src/feature/feature-visual-point-python.h | 1 |
| src/feature/visual-point-projecter-python.h | 1 |
| src/filters/filter-differentiator-python.h | 1 |
| src/filters/madgwickahrs-python.h | 1 |
| src/math/op-point-modifier-python.h | 1 |
| src/matrix/derivator-python.h | 5 |
| src/matrix/derivator.cpp | 32 |
| src/matrix/double-constant-python.h | 1 |
| src/matrix/fir-filter-python.h | 4 |
| src/matrix/integrator-abstract-python.h | 1 |
| src/matrix/integrator-abstract.cpp | 7 |
| src/matrix/integrator-euler.cpp | 10 |
| src/matrix/integrator-euler.t.cpp | 32 |
| src/matrix/matrix-constant-python.h | 1 |
| src/matrix/operator.cpp | 83 |
| src/matrix/vector-constant-python.h | 1 |
| src/matrix/vector-to-rotation-python.h | 4 |
| src/signal/signal-cast.cpp | 1 |
| src/sot/sot-python.h | 1 |
| src/task/gain-adaptive-python.h | 1 |
| src/task/gain-hyperbolic-python.h | 1 |
| src/task/task-conti-python.h | 1 |
| src/task/task-pd-python.h | 1 |
| src/task/task-python.h | 1 |
| src/task/task-unilateral-python.h | 1 |
| src/tools/binary-int-to-uint-python.h | 1 |
| src/tools/clamp-workspace-python.h | 1 |
| src/tools/com-freezer-python.h | 1 |
| src/tools/event-python.h | 1 |
| src/tools/exp-moving-avg-python.h | 1 |
| src/tools/gradient-ascent-python.h | 1 |
| src/tools/gripper-control-python.h | 1 |
| src/tools/joint-limitator-python.h | 1 |
| src/tools/joint-trajectory-command.hh | 11 |
| src/tools/joint-trajectory-entity-python.h | 2 |
| src/tools/kalman-python.h | 1 |
| src/tools/latch-python.h | 1 |
| src/tools/latch.cpp | 3 |
| src/tools/mailbox-vector-python.h | 1 |
| src/tools/mailbox-vector.cpp | 5 |
| src/tools/motion-period-python.h | 1 |
| src/tools/neck-limitation-python.h | 1 |
| src/tools/parameter-server-python.h | 1 |
| src/tools/periodic-call-entity-python.h | 1 |
| src/tools/robot-simu-python.h | 1 |
| src/tools/robot-simu.cpp | 21 |
| src/tools/robot-utils-py.cpp | 42 |
| src/tools/sequencer-python.h | 1 |
| src/tools/smooth-reach-python.h | 1 |
| src/tools/switch.cpp | 21 |
| src/tools/time-stamp-python.h | 1 |
| src/tools/timer-python.h | 4 |
| src/tools/type-name-helper.hh | 20 |
| src/traces/reader-python.h | 1 |
