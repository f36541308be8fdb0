import Verif.Common.Outcome

/-!
# The exceptions (src/exception, include/sot/core/exception-*.hh) and some of the places that throw them

Simplifications: texts are lists of characters, one character is one byte, a number is written by a function carried by the argument. Of the
conversions of `vsnprintf` the model knows those of the formats of the library (`%%`, `%s`, `%d`, `%.Nf`); another conversion, a conversion
without its argument or with an argument of another type is undefined, and the arguments in excess are ignored, as in the standard.
SOT_EXCEPTION_PASSING_PARAM is not defined, as in the sources (include/sot/core/exception-abstract.hh:24-25).
-/

namespace Verif.Errors

/-- The classes of exceptions (include/sot/core/exception-abstract.hh:36-120 and the six other headers). -/
inductive Kind
  | abstract | signal | task | feature | factory | dynamic | tools
  deriving DecidableEq, Repr

/-- `EXCEPTION_NAME` (src/exception/exception-abstract.cpp:20, src/exception/exception-signal.cpp:21, src/exception/exception-task.cpp:21,
src/exception/exception-feature.cpp:21, src/exception/exception-factory.cpp:22, src/exception/exception-dynamic.cpp:21,
src/exception/exception-tools.cpp:21). -/
def Kind.name : Kind → String
  | .abstract => "Abstract"
  | .signal => "Signal"
  | .task => "Task"
  | .feature => "Feature"
  | .factory => "Factory"
  | .dynamic => "Dynamic"
  | .tools => "Tools"

/-- The first code of a class (include/sot/core/exception-abstract.hh:38-48). -/
def Kind.base : Kind → Nat
  | .abstract => 0
  | .signal => 100
  | .task => 200
  | .feature => 300
  | .factory => 400
  | .dynamic => 500
  | .tools => 700

/-- The number of codes of a class: those of its `ErrorCodeEnum` (include/sot/core/exception-signal.hh:33-43,
include/sot/core/exception-task.hh:33-40, include/sot/core/exception-feature.hh:33-37, include/sot/core/exception-factory.hh:33-46,
include/sot/core/exception-dynamic.hh:33-42, include/sot/core/exception-tools.hh:33-40). -/
def Kind.count : Kind → Nat
  | .abstract => 1
  | .signal => 7
  | .task => 6
  | .feature => 3
  | .factory => 10
  | .dynamic => 6
  | .tools => 4

/-- An exception: its class, its code and its message (include/sot/core/exception-abstract.hh:55-61). -/
structure Exc where
  kind : Kind
  code : Int
  message : List Char
  deriving DecidableEq

/-- An argument of `vsnprintf`: a C string, an `int`, or a `double` with the way it is written with a number of decimals
(src/exception/exception-signal.cpp:31-36). -/
inductive Arg
  | str (s : List Char)
  | int (i : Int)
  | dbl (text : Nat → List Char)

/-- What `c_str` and `buffer` give to a reader of C strings: the characters before the first null one (src/exception/exception-signal.cpp:38). -/
def cstr (s : List Char) : List Char := s.takeWhile (· ≠ '\x00')

/-- The expansion of a format (src/exception/exception-signal.cpp:36). -/
def expand : List Char → List Arg → Outcome (List Char)
  | [], _ => .ok []
  | c :: cs, args =>
    if c ≠ '%' then (expand cs args).map (c :: ·)
    else
      match cs with
      | [] => .ub
      | d :: ds =>
        if d = '%' then (expand ds args).map ('%' :: ·)
        else if d = 's' then
          match args with
          | .str s :: as => (expand ds as).map (cstr s ++ ·)
          | _ => .ub
        else if d = 'd' then
          match args with
          | .int i :: as => (expand ds as).map ((toString i).toList ++ ·)
          | _ => .ub
        else if d = '.' then
          match ds with
          | p :: 'f' :: es =>
            if p.isDigit then
              match args with
              | .dbl t :: as => (expand es as).map (t (p.toNat - 48) ++ ·)
              | _ => .ub
            else .ub
          | _ => .ub
        else .ub

/-- `vsnprintf(buffer, SIZE, format, args)`, then the text in the buffer: at most `SIZE - 1` characters of the expansion
(src/exception/exception-signal.cpp:34-36). -/
def vsnprintf (size : Nat) (format : List Char) (args : List Arg) : Outcome (List Char) :=
  (expand (cstr format) args).map fun t => cstr (t.take (size - 1))

/-- The constructor with a code and a message (src/exception/exception-abstract.cpp:22-28, src/exception/exception-signal.cpp:23-25,
src/exception/exception-task.cpp:23-25, src/exception/exception-feature.cpp:23-25, src/exception/exception-factory.cpp:24-29,
src/exception/exception-dynamic.cpp:23-25, src/exception/exception-tools.cpp:23-25). -/
def make (k : Kind) (code : Int) (msg : List Char) : Exc := ⟨k, code, msg⟩

/-- The constructor with a format. The text of the format is appended to the message (src/exception/exception-signal.cpp:27-41,
src/exception/exception-factory.cpp:31-53, src/exception/exception-dynamic.cpp:27-41, src/exception/exception-tools.cpp:27-40), except for tasks
and features, of which it is the whole message (src/exception/exception-task.cpp:27-40, src/exception/exception-feature.cpp:27-41). The abstract
class has no such constructor: the model gives it the first behaviour. -/
def makeFormat (k : Kind) (code : Int) (msg format : List Char) (args : List Arg) : Outcome Exc :=
  (vsnprintf 256 format args).map fun b =>
    if k = .task ∨ k = .feature then ⟨k, code, b⟩ else ⟨k, code, msg ++ b⟩

/-- `operator<<` (src/exception/exception-abstract.cpp:77-87). -/
def print (e : Exc) : List Char :=
  e.kind.name.toList ++ "Error [#".toList ++ (toString e.code).toList ++ "]:  ".toList ++ e.message ++ ['\n']

/-- `what` and `getMessage`: a C string (src/exception/exception-abstract.cpp:34-36, src/exception/exception-abstract.cpp:44). -/
def what (e : Exc) : List Char := cstr e.message

/-- `catch SOT_RETHROW`: the exception is caught by reference to the abstract class and thrown again by value
(include/sot/core/exception-abstract.hh:122-123). -/
def rethrow (e : Exc) : Exc := ⟨.abstract, e.code, e.message⟩

/-- Nested calls, each of them with `catch SOT_RETHROW` or not: what arrives at the caller of an exception
(src/task/task.cpp:207, src/task/task.cpp:309). -/
def through (catches : List Bool) (e : Exc) : Exc :=
  catches.foldl (fun e c => if c then rethrow e else e) e

/-- What is thrown by a feature when the error of its reference is too short: the two literals are one message and the name of the feature is
the format (src/feature/feature-generic.cpp:86-90, src/feature/feature-generic.cpp:100-104, src/feature/feature-abstract.cpp:110-114). -/
def sizeError (name : List Char) : Outcome Exc :=
  makeFormat .feature 302 ("Error: dimension uncompatible with des->errorIN size. (while considering feature <%s>).".toList) (cstr name) []

/-- What is thrown by a visual point that is behind the camera (src/feature/feature-visual-point.cpp:96-98). -/
def behindCamera (z : Nat → List Char) : Outcome Exc :=
  makeFormat .feature 301 "VisualPoint is behind the camera".toList " (Z=%.1f).".toList [.dbl z]

/-- What is thrown by a visual point in the plane of the camera (src/feature/feature-visual-point.cpp:102-104). -/
def nullDepth (z : Nat → List Char) : Outcome Exc :=
  makeFormat .feature 301 "VisualPoint Z coordinates is null".toList " (Z=%.3f)".toList [.dbl z]

/-- What is thrown by the pool for a task that is not there (src/factory/pool.cpp:58-60). -/
def unknownTask (name : List Char) : Outcome Exc :=
  makeFormat .factory 401 "Unknown task.".toList " (while calling <%s>)".toList [.str name]

/-- What is thrown by the pool for a feature that is not there (src/factory/pool.cpp:85-87). -/
def unknownFeature (name : List Char) : Outcome Exc :=
  makeFormat .factory 401 "Unknown feature.".toList " (while calling <%s>)".toList [.str name]

/-- What is thrown by the pool for a task that is already there (src/factory/pool.cpp:44-47). -/
def taskConflict (name : List Char) : Outcome Exc :=
  makeFormat .factory 407 "Another task already defined with the same name. ".toList "Task name is <%s>.".toList [.str name]

/-- What is thrown by the pool for a feature that is already there (src/factory/pool.cpp:71-74). -/
def featureConflict (name : List Char) : Outcome Exc :=
  makeFormat .factory 407 "Another feature already defined with the same name. ".toList "Feature name is <%s>.".toList [.str name]

end Verif.Errors
