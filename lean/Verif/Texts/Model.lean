import Verif.Common.Outcome

/-!
# The texts that describe the stack, the tasks and the pool (src/sot, src/task, src/factory)

Simplifications: texts are lists of characters, the file of the graph is what is written in it (that it can be opened is not tested by the code),
the date is given as a text.
-/

namespace Verif.Texts

/-- The command `list` of the stack (src/sot/sot-command.h:137-152). -/
def listStack (tasks : List (List Char)) : List Char :=
  "( ".toList ++ tasks.flatMap (fun n => '"' :: (n ++ "\", ".toList)) ++ ")".toList

/-- The command that lists the features of a task (src/task/task-command.h:34-44). -/
def listFeatures (features : List (List Char)) : List Char :=
  "[".toList ++ features.flatMap (fun n => '\'' :: (n ++ "',".toList)) ++ "]".toList

/-- `Sot::display` (src/sot/sot.cpp:648-657), the text of the command `display` (src/sot/sot-command.h:118-125). -/
def displayStack (tasks : List (List Char)) : List Char :=
  "+-----------------\n+   SOT     \n+-----------------\n".toList ++ tasks.flatMap (fun n => "| ".toList ++ (n ++ "\n".toList)) ++
    "+-----------------\n".toList

/-- `Task::display` (src/task/task.cpp:319-327). -/
def displayTask (name : List Char) (features : List (List Char)) : List Char :=
  "Task ".toList ++ name ++ ": \n--- LIST ---  \n".toList ++ features.flatMap fun n => "-> ".toList ++ (n ++ "\n".toList)

/-- `Task::writeGraph` (src/task/task.cpp:329-338). -/
def graphTask (name : List Char) (features : List (List Char)) : List Char :=
  features.flatMap fun n => "\t\"".toList ++ n ++ "\" -> \"".toList ++ name ++ "\"\n".toList

/-- The edges of the graph of the stack: one for each task that has a next one (src/sot/sot.cpp:669-680). -/
def edges : List (List Char) → List Char
  | [] => []
  | [_] => []
  | a :: b :: l => "\t\t\t\"".toList ++ a ++ "\" -> \"".toList ++ b ++ "\" [color=red]\n".toList ++ edges (b :: l)

/-- `Sot::writeGraph` (src/sot/sot.cpp:668-697). -/
def graphStack (name : List Char) (tasks : List (List Char)) : List Char :=
  edges tasks ++ "\t\tsubgraph cluster_Tasks {\n".toList ++ "\t\t\tsubgraph \"cluster_".toList ++ name ++ "\" {\n".toList ++
    "\t\t\t\tcolor=lightsteelblue1; label=\"".toList ++ name ++ "\"; style=filled;\n".toList ++
    tasks.flatMap (fun t => "\t\t\t\t\"".toList ++ t ++ "\" [ label = \"".toList ++ t ++ "\" ,\n".toList ++
      "\t\t\t\t   fontcolor = black, color = black, fillcolor = magenta, style=filled, shape=box ]\n".toList) ++
    "\t\t\t}\n".toList ++ "\t\t\t}\n".toList

/-- `std::string::rfind` of a character (src/factory/pool.cpp:93, src/factory/pool.cpp:95). -/
def rfind (c : Char) : List Char → Option Nat
  | [] => none
  | x :: xs =>
    match rfind c xs with
    | some i => some (i + 1)
    | none => if x = c then some 0 else none

/-- `std::string::substr`, which throws when the position is beyond the end; the length can be `npos`
(src/factory/pool.cpp:94, src/factory/pool.cpp:98). -/
def substr (s : List Char) (pos : Nat) (len : Option Nat) : Outcome (List Char) :=
  if s.length < pos then .throw
  else .ok (match len with | some n => (s.drop pos).take n | none => s.drop pos)

/-- The name of the graph (src/factory/pool.cpp:93-100). -/
def genericName (file : List Char) : Outcome (List Char) :=
  (substr file 0 (rfind '.' file)).bind fun tmp =>
    match rfind '/' file with
    | some i => substr tmp i (some tmp.length)
    | none => .ok tmp

/-- `PoolStorage::writeGraph`: what is written in the file (src/factory/pool.cpp:92-143). The tasks are in the order of the pool. -/
def graphPool (date file : List Char) (tasks : List (List Char)) : Outcome (List Char) :=
  (genericName file).map fun g =>
    "/* This graph has been automatically generated. \n   ".toList ++ date ++ " */\n".toList ++ "digraph ".toList ++ g ++ " { ".toList ++
    "\t graph [ label=\"".toList ++ g ++ "\" bgcolor = white rankdir=LR ]\n".toList ++
    "\t node [ fontcolor = black, color = black, fillcolor = gold1, style=filled, shape=box ] ; \n".toList ++
    "\tsubgraph cluster_Tasks { \n".toList ++ "\t\t color=blue; label=\"Tasks\";\n".toList ++
    tasks.flatMap (fun t => "\t\t".toList ++ t ++ " [ label = \"".toList ++ t ++ "\" ,\n".toList ++
      "\t\t   fontcolor = black, color = black, fillcolor = magenta, style=filled, shape=box ]\n".toList) ++
    "}\n".toList

end Verif.Texts
