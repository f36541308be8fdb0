/-!
# The traces (src/debug/debug.cpp, include/sot/core/debug.hh)

Simplifications: a text is a list of characters, a line is written at once and not buffered, and either entirely written or not at all. The
renderings of the formats are given (see the model of the exceptions for `vsnprintf`). Names of files that differ denote different files.
-/

namespace Verif.Debug

/-- A stream on a file, `debugfile`: the file that is open, if any, and whether an operation failed (src/debug/debug.cpp:24-42). -/
structure Stream where
  file : Option String
  failed : Bool
  deriving DecidableEq

/-- A flow of traces: the text that waits in `tmpbuffer`, and the level (include/sot/core/debug.hh:42-48). The two flows are static objects,
of which the level is zero before it is assigned (src/debug/debug.cpp:60-61). -/
structure Flow where
  tmp : List Char
  level : Int
  deriving DecidableEq

/-- The state of a program that writes traces: the contents of the files, whether the disk accepts what is written, `debugfile`, and the flows
`sotDEBUGFLOW` and `sotERRORFLOW` (src/debug/debug.cpp:24-42, src/debug/debug.cpp:60-61). -/
structure State where
  content : String → List Char
  disk : Bool
  stream : Stream
  debug : Flow
  error : Flow

/-- `debugfile << text` (include/sot/core/debug.hh:33): nothing if an operation failed before; without a file or if the disk refuses, it fails. -/
def write (s : State) (text : List Char) : State :=
  if s.stream.failed then s
  else
    match s.stream.file with
    | none => { s with stream := ⟨none, true⟩ }
    | some f =>
      if s.disk then { s with content := fun g => if g = f then s.content g ++ text else s.content g }
      else { s with stream := ⟨some f, true⟩ }

/-- `close` of a stream that did not fail and that has a file (src/debug/debug.cpp:48, src/debug/debug.cpp:54). -/
def closeGood (s : State) : State :=
  if !s.stream.failed && s.stream.file.isSome then { s with stream := ⟨none, s.stream.failed⟩ } else s

/-- `openFile`; the system accepts to open some of the names. The mode is `trunc & out`, which is none, and `open` adds `out`: the file is
emptied. A stream that has a file cannot be opened (src/debug/debug.cpp:47-51). -/
def openFile (can : String → Bool) (name : String) (s : State) : State :=
  let s := closeGood s
  match s.stream.file with
  | some f => { s with stream := ⟨some f, true⟩ }
  | none =>
    if can name then { s with stream := ⟨some name, false⟩, content := fun g => if g = name then [] else s.content g }
    else { s with stream := ⟨none, true⟩ }

/-- `closeFile` (src/debug/debug.cpp:53-56). -/
def closeFile (s : State) : State :=
  let s := closeGood s
  { s with stream := ⟨s.stream.file, true⟩ }

/-- What `SOT_COMMON_TRACES` keeps of the rendering of a format: at most 511 characters, until the first null one
(include/sot/core/debug.hh:27-34, include/sot/core/debug.hh:40). -/
def cut (text : List Char) : List Char := (text.take 511).takeWhile (· ≠ '\x00')

/-- `trace(level, format, ...)` of `sotDEBUGFLOW` (include/sot/core/debug.hh:50-53). -/
def traceDebug (s : State) (level : Int) (text : List Char) : State :=
  let s' := if level ≤ s.debug.level then write s (s.debug.tmp ++ cut text ++ ['\n']) else s
  { s' with debug := ⟨[], s'.debug.level⟩ }

/-- `trace(level, format, ...)` of `sotERRORFLOW` (include/sot/core/debug.hh:50-53). -/
def traceError (s : State) (level : Int) (text : List Char) : State :=
  let s' := if level ≤ s.error.level then write s (s.error.tmp ++ cut text ++ ['\n']) else s
  { s' with error := ⟨[], s'.error.level⟩ }

/-- `trace(format, ...)` of `sotERRORFLOW` (include/sot/core/debug.hh:55-58). -/
def traceErrorAlways (s : State) (text : List Char) : State :=
  let s' := write s (s.error.tmp ++ cut text ++ ['\n'])
  { s' with error := ⟨[], s'.error.level⟩ }

/-- The statements of a program: the macros, with the mode VP_DEBUG_MODE of the file where they are written, the level, the prefix and the text,
and the two functions on the file (include/sot/core/debug.hh:99-132, src/debug/debug.cpp:47-56). The disk can change. -/
inductive Op
  | debug (mode level : Int) (pre text : List Char)
  | debugf (mode level : Int) (pre text : List Char)
  | error (pre text : List Char)
  | errorf (level : Int) (pre text : List Char)
  | errorfAlways (pre text : List Char)
  | openFile (name : String)
  | closeFile
  | disk (b : Bool)

/-- A statement of a program that is compiled with VP_DEBUG: `sotDEBUG` (include/sot/core/debug.hh:99-104), `sotDEBUGF`
(include/sot/core/debug.hh:119-126), `sotERROR` (include/sot/core/debug.hh:113-117), `sotERRORF` (include/sot/core/debug.hh:128-132). -/
def step (can : String → Bool) (s : State) : Op → State
  | .debug mode level pre text => if level > mode ∨ s.stream.failed then s else write s (pre ++ text)
  | .debugf mode level pre text =>
    if s.stream.failed then s else traceDebug { s with debug := ⟨s.debug.tmp ++ pre, mode⟩ } level text
  | .error pre text => if s.stream.failed then s else write s (pre ++ text)
  | .errorf level pre text =>
    if s.stream.failed then s else traceError { s with error := ⟨s.error.tmp ++ pre, s.error.level⟩ } level text
  | .errorfAlways pre text =>
    if s.stream.failed then s else traceErrorAlways { s with error := ⟨s.error.tmp ++ pre, s.error.level⟩ } text
  | .openFile name => openFile can name s
  | .closeFile => closeFile s
  | .disk b => { s with disk := b }

/-- A statement of a program that is compiled without VP_DEBUG: only `sotERROR` writes, without a test of the stream
(include/sot/core/debug.hh:163-190). -/
def stepQuiet (can : String → Bool) (s : State) : Op → State
  | .debug _ _ _ _ => s
  | .debugf _ _ _ _ => s
  | .error pre text => write s (pre ++ text)
  | .errorf _ _ _ => s
  | .errorfAlways _ _ => s
  | .openFile name => openFile can name s
  | .closeFile => closeFile s
  | .disk b => { s with disk := b }

/-- The start of a program compiled with VP_DEBUG: the default file is opened (src/debug/debug.cpp:29-30). -/
def start (can : String → Bool) (content : String → List Char) : State :=
  let name := "/tmp/sot-core-traces.txt"
  if can name then ⟨fun g => if g = name then [] else content g, true, ⟨some name, false⟩, ⟨[], 0⟩, ⟨[], 0⟩⟩
  else ⟨content, true, ⟨none, true⟩, ⟨[], 0⟩, ⟨[], 0⟩⟩

/-- The start of a program compiled without VP_DEBUG (src/debug/debug.cpp:34-40). -/
def startQuiet (content : String → List Char) : State := ⟨content, true, ⟨none, true⟩, ⟨[], 0⟩, ⟨[], 0⟩⟩

/-- An execution (src/debug/debug.cpp:47-61). -/
def run (can : String → Bool) (s : State) (ops : List Op) : State := ops.foldl (step can) s

/-- An execution without VP_DEBUG (src/debug/debug.cpp:47-61). -/
def runQuiet (can : String → Bool) (s : State) (ops : List Op) : State := ops.foldl (stepQuiet can) s

end Verif.Debug
