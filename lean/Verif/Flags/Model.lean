import Verif.Common.Outcome

/-!
# Model of `Flags` (src/sot/flags.cpp, include/sot/core/flags.hh)
-/

namespace Verif.Flags

/-- `class Flags` (include/sot/core/flags.hh:33-36): the explicit bits `flags` and the bit
`outOfRangeFlag` read beyond them. -/
structure Flags where
  flags : List Bool
  outOfRangeFlag : Bool
  deriving DecidableEq, Repr

/-- `Flags::Flags(const bool &b)` (src/sot/flags.cpp:30). -/
def ofBool (b : Bool) : Flags := ⟨[], b⟩

/-- The loop of `Flags::Flags(const char *)` (src/sot/flags.cpp:34-48). The vector has been
value-initialised to `false`, a space leaves its slot `false`, any character other than
`'0'`, `'1'`, `' '` throws. -/
def charsToBits : List Char → Outcome (List Bool)
  | [] => .ok []
  | c :: cs =>
    if c = '0' then (charsToBits cs).map (false :: ·)
    else if c = '1' then (charsToBits cs).map (true :: ·)
    else if c = ' ' then (charsToBits cs).map (false :: ·)
    else .throw

/-- `Flags::Flags(const char *)` (src/sot/flags.cpp:32-49). The C string is the list of its
characters before the terminating zero. -/
def ofChars (s : List Char) : Outcome Flags := (charsToBits s).map (⟨·, false⟩)

/-- `Flags::Flags(const std::vector<bool> &)` (src/sot/flags.cpp:51-52). -/
def ofVector (v : List Bool) : Flags := ⟨v, false⟩

/-- `Flags::operator bool` (src/sot/flags.cpp:54-59). -/
def toBool (f : Flags) : Bool :=
  if f.outOfRangeFlag then true else f.flags.any id

/-- `Flags::operator()(const int &)` (src/sot/flags.cpp:63-66). A negative index passes the test
`i < (int)flags.size()` and reads before the beginning of the vector: undefined behaviour. The cast of
the size to `int` is taken exact (fewer than 2^31 explicit bits). -/
def call (f : Flags) (i : Int) : Outcome Bool :=
  if i < (f.flags.length : Int) then
    (if i < 0 then .ub else rd f.flags i.toNat)
  else .ok f.outOfRangeFlag

/-- `Flags::add` (src/sot/flags.cpp:69). -/
def add (f : Flags) (b : Bool) : Flags := { f with flags := f.flags ++ [b] }

/-- `Flags::set` (src/sot/flags.cpp:72-74). -/
def set (f : Flags) (idx : Nat) : Flags :=
  if idx < f.flags.length then { f with flags := f.flags.set idx true } else f

/-- `Flags::unset` (src/sot/flags.cpp:76-78). -/
def unset (f : Flags) (idx : Nat) : Flags :=
  if idx < f.flags.length then { f with flags := f.flags.set idx false } else f

/-- `Flags::operator!` (src/sot/flags.cpp:84-89). -/
def not (f : Flags) : Flags := ⟨f.flags.map (!·), !f.outOfRangeFlag⟩

/-- `vector<bool>::resize(n, b)` restricted to growing, as used at src/sot/flags.cpp:104-105 and
115-116 (the call is guarded by `f2.flags.size() > flags.size()`). -/
def growTo (l : List Bool) (n : Nat) (b : Bool) : List Bool :=
  if n > l.length then l ++ List.replicate (n - l.length) b else l

/-- The two loops of `operator&=`/`operator|=` (src/sot/flags.cpp:106-109, 117-120): slots below
`f2.flags.size()` are combined with the explicit bit of `f2`, the others with its default bit. The two
index loops are merged in one recursion. -/
def combine (op : Bool → Bool → Bool) : List Bool → List Bool → Bool → List Bool
  | [], _, _ => []
  | a :: as, [], d => op a d :: combine op as [] d
  | a :: as, b :: bs, d => op a b :: combine op as bs d

/-- `Flags::operator&=` (src/sot/flags.cpp:103-112). -/
def andAssign (f f2 : Flags) : Flags :=
  ⟨combine (· && ·) (growTo f.flags f2.flags.length f.outOfRangeFlag) f2.flags f2.outOfRangeFlag,
   f.outOfRangeFlag && f2.outOfRangeFlag⟩

/-- `Flags::operator|=` (src/sot/flags.cpp:114-123). -/
def orAssign (f f2 : Flags) : Flags :=
  ⟨combine (· || ·) (growTo f.flags f2.flags.length f.outOfRangeFlag) f2.flags f2.outOfRangeFlag,
   f.outOfRangeFlag || f2.outOfRangeFlag⟩

/-- `operator&(const Flags &, const Flags &)` (src/sot/flags.cpp:91-95). -/
def and (f1 f2 : Flags) : Flags := andAssign f1 f2

/-- `operator|(const Flags &, const Flags &)` (src/sot/flags.cpp:97-101). -/
def or (f1 f2 : Flags) : Flags := orAssign f1 f2

/-- `operator<<` (src/sot/flags.cpp:126-129): the characters written. -/
def print (f : Flags) : List Char := f.flags.map (fun b => if b then '1' else '0')

/-- The loop of `operator>>` (src/sot/flags.cpp:134-148), appending to the bits read so far. The
boolean tells whether `std::invalid_argument` was thrown; the bits read before are kept in `fl`. -/
def parseLoop : List Bool → List Char → List Bool × Bool
  | acc, [] => (acc, false)
  | acc, c :: cs =>
    if c = '0' then parseLoop (acc ++ [false]) cs
    else if c = '1' then parseLoop (acc ++ [true]) cs
    else if c = ' ' then parseLoop acc cs
    else (acc, true)

/-- `operator>>` (src/sot/flags.cpp:131-150): the object after the call and whether it threw. The
stream is the list of characters left; its default bit is not touched. -/
def parse (f : Flags) (s : List Char) : Flags × Bool :=
  let r := parseLoop [] s
  ({ f with flags := r.1 }, r.2)

/-- The mutating member functions (src/sot/flags.cpp:69-78, 103-123), to speak of histories. -/
inductive Op where
  | add (b : Bool)
  | set (i : Nat)
  | unset (i : Nat)
  | andAssign (f : Flags)
  | orAssign (f : Flags)
  deriving DecidableEq, Repr

/-- One mutating call (src/sot/flags.cpp:69-78, 103-123). -/
def step (f : Flags) : Op → Flags
  | .add b => add f b
  | .set i => set f i
  | .unset i => unset f i
  | .andAssign g => andAssign f g
  | .orAssign g => orAssign f g

/-- A history of mutating calls. -/
def run (f : Flags) (ops : List Op) : Flags := ops.foldl step f

end Verif.Flags
