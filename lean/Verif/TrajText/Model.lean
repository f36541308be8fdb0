/-!
# Reading a trajectory from text

Simplifications: characters are `Char` and texts are lists of characters; the values read by `is >> aValue` from the text of a number
are the results of an arbitrary function `rd`; the debug prints (`dbg_level` is 0) are left out. The library Boost.Regex is represented
by the definitions `Rx.run` and `search`, in the meaning of its Perl syntax: the leftmost match is taken, and among the matches that
start there the first one in the order of the alternatives, the repetitions taking as many characters as possible first. The limits of
the library on the cost of a match are not modelled.
-/

namespace Verif.TrajText

/-! ### Regular expressions -/

/-- The constructions that the expressions of src/tools/trajectory.cpp:35-56 use: a character class, its greedy and possessive
repetitions, the sequence, the alternative, the captured group and the empty expression. -/
inductive Rx where
  | cls (p : Char → Bool)
  | star (p : Char → Bool)
  | starPoss (p : Char → Bool)
  | seq (a b : Rx)
  | alt (a b : Rx)
  | grp (n : Nat) (a : Rx)
  | eps

/-- The texts of the captured groups; a group that took no part in the match converts to the empty string (`what[i]`,
src/tools/trajectory.cpp:170). -/
abbrev Caps := Nat → List Char

/-- What a greedy repetition can leave, the longest repetition first. -/
def stars (p : Char → Bool) : List Char → List (List Char)
  | [] => [[]]
  | c :: s => if p c then stars p s ++ [c :: s] else [c :: s]

/-- The matches at the beginning of a text, in the order in which they are tried: the remaining text and the captures. -/
def Rx.run : Rx → List Char → Caps → List (List Char × Caps)
  | .cls p, c :: s, k => if p c then [(s, k)] else []
  | .cls _, [], _ => []
  | .star p, s, k => (stars p s).map fun r => (r, k)
  | .starPoss p, s, k => [(s.dropWhile p, k)]
  | .seq a b, s, k => (a.run s k).flatMap fun r => b.run r.1 r.2
  | .alt a b, s, k => a.run s k ++ b.run s k
  | .grp n a, s, k => (a.run s k).map fun r => (r.1, fun i => if i = n then s.take (s.length - r.1.length) else r.2 i)
  | .eps, s, k => [(s, k)]

/-- `boost::regex_search` (src/tools/trajectory.cpp:73): the text after the match and the captures. -/
def search (e : Rx) : List Char → Option (List Char × Caps)
  | [] => (e.run [] fun _ => []).head?
  | c :: s =>
    match (e.run (c :: s) fun _ => []).head? with
    | some r => some r
    | none => search e s

/-- One character. -/
def Rx.chr (c : Char) : Rx := .cls (· == c)

/-- One or more characters of a class. -/
def Rx.plus (p : Char → Bool) : Rx := .seq (.cls p) (.star p)

/-- The class `[0-9]` (src/tools/trajectory.cpp:38). -/
def digit (c : Char) : Bool := '0' ≤ c && c ≤ '9'

/-- The class `[-0-9]` (src/tools/trajectory.cpp:35). -/
def signDigit (c : Char) : Bool := c == '-' || digit c

/-- The class `[a-zA-Z0-9_]` (src/tools/trajectory.cpp:45). -/
def nameChar (c : Char) : Bool := ('a' ≤ c && c ≤ 'z') || ('A' ≤ c && c ≤ 'Z') || digit c || c == '_'

/-- The class `[a-zA-z_0-9]` (src/tools/trajectory.cpp:40); its second range goes from the capital A to the small z. -/
def frameChar (c : Char) : Bool := ('a' ≤ c && c ≤ 'z') || ('A' ≤ c && c ≤ 'z') || c == '_' || digit c

/-- `float_str_re` (src/tools/trajectory.cpp:35). -/
def floatRe : Rx := .seq (.plus signDigit) (.seq (.chr '.') (.star digit))

/-- `header_re` (src/tools/trajectory.cpp:38-42). -/
def headerRe : Rx :=
  .seq (.chr '(') <| .seq (.grp 1 (.plus digit)) <| .seq (.chr ',') <| .seq (.chr '(') <|
  .seq (.grp 2 floatRe) <| .seq (.chr ',') <| .seq (.grp 3 floatRe) <| .seq (.chr ')') <|
  .seq (.chr ',') <| .seq (.grp 4 (.star frameChar)) <| .seq (.chr ')') <| .seq (.chr ',') (.chr '(')

/-- `list_of_jn_re` (src/tools/trajectory.cpp:45-46). -/
def namesRe : Rx := .seq (.grp 1 (.plus nameChar)) (.grp 2 (.alt (.chr ',') (.chr ')')))

/-- `list_of_pv_re` (src/tools/trajectory.cpp:49-50): the alternative binds less than the sequence, so it is a number or a separator;
the sign `+` after the repetition makes it possessive. -/
def valuesRe : Rx :=
  .alt (.grp 1 (.seq (.plus signDigit) (.seq (.chr '.') (.starPoss digit)))) (.seq .eps (.grp 2 (.alt (.chr ',') (.chr ')'))))

/-- `bg_pt_re` (src/tools/trajectory.cpp:51). -/
def openRe : Rx := .chr '('

/-- `end_pt_re` (src/tools/trajectory.cpp:52). -/
def closeRe : Rx := .chr ')'

/-- `comma_pt_re` and `bg_liste_of_pts_re` (src/tools/trajectory.cpp:53, 56). -/
def commaOpenRe : Rx := .seq (.chr ',') (.chr '(')

/-! ### Streams -/

/-- An `istringstream`: its text and whether all its error flags are down. -/
structure IStr where
  buf : List Char
  good : Bool

/-- `is.str(text)`: the text is replaced, the flags stay. -/
def IStr.str (i : IStr) (t : List Char) : IStr := { i with buf := t }

/-- The number that decimal digits write. -/
def decimal (s : List Char) : Nat := s.foldl (fun n c => 10 * n + (c.toNat - '0'.toNat)) 0

/-- `is >> n` for an unsigned number of at most `m`: nothing is done when a flag is up; otherwise digits are taken, and reaching the end
of the text raises the flag of the end of file. A number that is too large gives the largest one and raises the flag of failures; no
digit gives zero and raises it. -/
def IStr.unsigned (m : Nat) (i : IStr) (old : Nat) : Nat × IStr :=
  if i.good then
    let d := i.buf.takeWhile digit
    let r := i.buf.dropWhile digit
    (if d.isEmpty then 0 else min m (decimal d), { buf := r, good := !r.isEmpty && !d.isEmpty && decide (decimal d ≤ m) })
  else (old, { i with good := false })

/-! ### The parser -/

/-- `JointTrajectoryPoint` (include/sot/core/trajectory.hh:115-120). -/
structure Point (V : Type) where
  positions : List V := []
  velocities : List V := []
  accelerations : List V := []
  efforts : List V := []
  deriving DecidableEq, Repr

/-- `Trajectory` with its header (include/sot/core/trajectory.hh:84-113, 176-187), without `time_from_start_`, which the parser does not
touch. -/
structure Trajectory (V : Type) where
  seq : Nat := 0
  secs : Nat := 0
  nsecs : Nat := 0
  frame : List Char := "initial_trajectory".toList
  names : List (List Char) := []
  points : List (Point V) := []
  deriving DecidableEq, Repr

/-- A run that ends with a result or does not end. -/
inductive Run (α : Type) where
  | done (a : α)
  | diverge
  deriving DecidableEq, Repr

/-- The largest `unsigned int`. -/
def maxU : Nat := 4294967295

/-- The largest `unsigned long int`, of 64 bits. -/
def maxUL : Nat := 18446744073709551615

variable {V : Type}

/-- `parse_header` (src/tools/trajectory.cpp:99-124): the trajectory and the remaining text, which is the whole text when nothing
matches (src/tools/trajectory.cpp:92). -/
def parseHeader (text : List Char) (t : Trajectory V) : Trajectory V × List Char :=
  match search headerRe text with
  | some (rest, what) =>
    let is : IStr := ⟨[], true⟩
    let is := is.str (what 1)
    let (seq, is) := is.unsigned maxU t.seq
    let is := is.str (what 2)
    let (secs, is) := is.unsigned maxUL t.secs
    let is := is.str (what 3)
    let (nsecs, _) := is.unsigned maxUL t.nsecs
    ({ t with seq := seq, secs := secs, nsecs := nsecs, frame := what 4 }, rest)
  | none => (t, text)

/-- `parse_joint_names` (src/tools/trajectory.cpp:126-152): the names and the remaining text. When nothing matches the text is
unchanged and the loop goes on for ever. -/
def parseNames (text : List Char) (names : List (List Char)) : Run (List (List Char) × List Char) :=
  match search namesRe text with
  | some (rest, what) =>
    if what 2 = [')'] then .done (names ++ [what 1], rest)
    else if rest.length < text.length then parseNames rest (names ++ [what 1])
    else .diverge
  | none => .diverge
termination_by text.length

/-- `parse_seq` (src/tools/trajectory.cpp:154-194): the values and the remaining text. It returns true always. -/
def parseSeq (rd : List Char → V) (text : List Char) (seq : List V) : Run (List V × List Char) :=
  match search valuesRe text with
  | some (rest, what) =>
    let seq' := if what 1 = [] then seq else seq ++ [rd (what 1)]
    if what 2 = [')'] then .done (seq', rest)
    else if rest.length < text.length then parseSeq rd rest seq'
    else .diverge
  | none => .done (seq, text)
termination_by text.length

/-- Sequencing of runs. -/
def Run.bind {α β : Type} (x : Run α) (f : α → Run β) : Run β :=
  match x with
  | .done a => f a
  | .diverge => .diverge

/-- `parse_point` (src/tools/trajectory.cpp:196-231): the point and the remaining text, or nothing when it returns false. -/
def parsePoint (rd : List Char → V) (text : List Char) : Run (Option (Point V × List Char)) :=
  match search openRe text with
  | none => .done none
  | some (t1, _) =>
    (parseSeq rd t1 []).bind fun (pos, t2) =>
      match search commaOpenRe t2 with
      | none => .done none
      | some (t3, _) =>
        (parseSeq rd t3 []).bind fun (vel, t4) =>
          match search commaOpenRe t4 with
          | none => .done none
          | some (t5, _) =>
            (parseSeq rd t5 []).bind fun (acc, t6) =>
              match search commaOpenRe t6 with
              | none => .done none
              | some (t7, _) =>
                (parseSeq rd t7 []).bind fun (eff, t8) => .done (some (⟨pos, vel, acc, eff⟩, t8))

/-- The loop of `parse_points` (src/tools/trajectory.cpp:243-263): the points read before it returns. The separator that it looks at is
the first group of the expression, the number. -/
def pointsLoop (rd : List Char → V) (text : List Char) (pts : List (Point V)) : Run (List (Point V)) :=
  match search openRe text with
  | none => .done pts
  | some (t1, _) =>
    match parsePoint rd t1 with
    | .diverge => .diverge
    | .done none => .done pts
    | .done (some (p, t2)) =>
      match search closeRe t2 with
      | none => .done (pts ++ [p])
      | some (t3, _) =>
        match search valuesRe t3 with
        | none => .done (pts ++ [p])
        | some (t4, what) =>
          if what 1 = [')'] then .done (pts ++ [p])
          else if t4.length < text.length then pointsLoop rd t4 (pts ++ [p])
          else .diverge
termination_by text.length

/-- `parse_points` (src/tools/trajectory.cpp:233-266). -/
def parsePoints (rd : List Char → V) (text : List Char) (pts : List (Point V)) : Run (List (Point V)) :=
  match search commaOpenRe text with
  | none => .done pts
  | some (t1, _) => pointsLoop rd t1 pts

/-- `parse_string` (src/tools/trajectory.cpp:268-282), which `deserialize` calls (src/tools/trajectory.cpp:294-300): the trajectory
afterwards. -/
def parse (rd : List Char → V) (text : List Char) (t : Trajectory V) : Run (Trajectory V) :=
  let (t1, rest) := parseHeader text t
  (parseNames rest t1.names).bind fun (names, rest2) =>
    (parsePoints rd rest2 t1.points).bind fun pts => .done { t1 with names := names, points := pts }

/-- The copy constructor (src/tools/trajectory.cpp:286-290). -/
def copy (t : Trajectory V) : Trajectory V := { seq := t.seq, secs := t.secs, nsecs := t.nsecs, frame := t.frame, points := t.points }

end Verif.TrajText
