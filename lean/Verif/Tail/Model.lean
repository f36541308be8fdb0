import Verif.Common.Outcome

/-!
# The reader of a growing file, `Contiifstream`

Simplifications: characters are one byte each; the content of the file at a call is an argument. The streams of the C++ library are modelled
as its standard describes them: `get` into a buffer stops before a newline, at the end of the file, which sets the flag `eofbit`, or when the
buffer is full; `tellg` fails when `eofbit` is set and then returns -1. Whether `eofbit` is set when the buffer becomes full just at the
end of the file depends on the library: it is an argument, `eager`.
-/

namespace Verif.Tail

/-- A line. -/
abbrev Line := List Char

/-- The number of characters that `get` reads: one less than the size of the buffer (include/sot/core/contiifstream.hh:39). -/
def chunkSize : Nat := 255

/-- What `get` reads. -/
def chunk (rest : List Char) : List Char := (rest.takeWhile (· ≠ '\n')).take chunkSize

/-- `std::string line(buffer)`: up to the first null character. -/
def asString (l : List Char) : Line := l.takeWhile (· ≠ '\x00')

/-- The loop of `Contiifstream::loop` from a position, with the characters that follow it: the lines and the final value of the cursor
(src/debug/contiifstream.cpp:29-42). After the end of the file `tellg` gives -1, and the cursor becomes zero. -/
def scan (eager : Bool) (cursor : Nat) (rest : List Char) : List Line × Nat :=
  if _hc : chunk rest = [] then ([], cursor)
  else
    if rest.drop (chunk rest).length = [] ∧ ((chunk rest).length < chunkSize ∨ eager = true) then ([asString (chunk rest)], 0)
    else
      match _hr : rest.drop (chunk rest).length with
      | [] => ([asString (chunk rest)], cursor + (chunk rest).length + 1)
      | _ :: rest' =>
        let r := scan eager (cursor + (chunk rest).length + 1) rest'
        (asString (chunk rest) :: r.1, r.2)
termination_by rest.length
decreasing_by
  have := congrArg List.length _hr
  simp only [List.length_drop, List.length_cons] at this
  omega

/-- The members (include/sot/core/contiifstream.hh:37-42). -/
structure Stream where
  cursor : Nat
  reader : List Line
  first : Bool

/-- The constructor (src/debug/contiifstream.cpp:15-16). -/
def Stream.new : Stream := ⟨0, [], true⟩

/-- `open` (include/sot/core/contiifstream.hh:47-50). -/
def Stream.reopen (s : Stream) : Stream := { s with cursor := 0 }

/-- `loop` (src/debug/contiifstream.cpp:20-47) on a file with this content, or one that cannot be opened. -/
def Stream.loop (eager : Bool) (s : Stream) (file : Option (List Char)) : Stream × Bool :=
  match file with
  | none => ({ s with first := false }, false)
  | some text =>
    let r := scan eager s.cursor (text.drop s.cursor)
    (⟨r.2, if s.first then s.reader else s.reader ++ r.1, false⟩, !r.1.isEmpty)

/-- `ready` (include/sot/core/contiifstream.hh:56). -/
def Stream.ready (s : Stream) : Bool := 0 < s.reader.length

/-- `next` (src/debug/contiifstream.cpp:49-53). -/
def Stream.next (s : Stream) : Outcome (Line × Stream) :=
  match s.reader with
  | [] => .ub
  | l :: ls => .ok (l, { s with reader := ls })

end Verif.Tail
