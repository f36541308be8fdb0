import Verif.Reader.Model

/-!
# Specification of the trace reader: a queue of rows

Independent of the iterator of the code: the rows loaded, and the rows still to be read.
-/

namespace Verif.Reader.Spec

variable {F : Type}

/-- The rows of a text: its lines (separated by the newline character) converted to numbers, those without number left out. -/
def rowsOf (parse : List Char → List F) (text : List Char) : List (List F) :=
  ((text.splitOn '\n').map parse).filter fun r => !r.isEmpty

/-- The entries of a row whose index reads true in the mask, in order. -/
def selected (sel : Flags.Flags) (row : List F) : List F :=
  (List.range row.length).filterMap fun i : Nat => if Flags.call sel i = .ok true then row[i]? else none

/-- All the rows loaded, and those still to be read; `todo = none` once a read found no row left. -/
structure Queue (F : Type) where
  all : List (List F)
  todo : Option (List (List F))

/-- What one operation does, and the row it delivers (if it is a read that finds one). -/
def step (parse : List Char → List F) (q : Queue F) : Op → Queue F × Option (List F)
  | .load none => (q, none)
  | .load (some text) =>
    (⟨q.all ++ rowsOf parse text, q.todo.map (· ++ rowsOf parse text)⟩, none)
  | .clear => (⟨[], some []⟩, none)
  | .rewind => (⟨q.all, some q.all⟩, none)
  | .resize _ _ => (q, none)
  | .read _ =>
    match q.todo with
    | some (r :: rs) => (⟨q.all, some rs⟩, some r)
    | _ => (⟨q.all, none⟩, none)

/-- What the successive reads of a history return; a read that finds no row returns what was returned before it. -/
def run (parse : List Char → List F) : Queue F → List F → List Op → List (List F)
  | _, _, [] => []
  | q, last, .read sel :: os =>
    let r := step parse q (.read sel)
    let out := (r.2.map (selected sel)).getD last
    out :: run parse r.1 out os
  | q, last, o :: os => run parse (step parse q o).1 last os

/-- No line of the file is longer than 1023 characters. -/
def ShortLines : Option (List Char) → Prop
  | none => True
  | some text => ∀ l ∈ text.splitOn '\n', l.length ≤ 1023

/-- Every file loaded in a history has short lines. -/
def ShortLoads (os : List Op) : Prop := ∀ f, Op.load f ∈ os → ShortLines f

end Verif.Reader.Spec
