import Verif.Model.Serialize

/-!
# Stream manipulators `as_enum` and `as_flags`

Model of `iomanip.hpp` lines 39-88 together with the parts of `std::istream` it uses (`std::ws`, `good`, `peek`,
`get`, `setstate`), following the C++17 standard wording: `std::ws` and `peek` construct a sentry, which sets
`failbit` on a stream that is not good.

Simplifications: no exception mask, classic locale, output streams are good with width 0; `Model/StreamFormat.lean` is the same code
with field widths, exception masks and output streams which are not good.  The manipulator object
itself (`detail/iomanip.hpp`) is modelled in `Model/Manipulator.lean`: `bound_manipulator` keeps a reference to a destroyed temporary
(C78), which is ignored here and harmless only because the stored lambdas are stateless.
-/

namespace Makeshift

/-- State of a `std::istream`: unread characters and state bits. -/
structure IStream where
  rest : Str
  eofbit : Bool := false
  failbit : Bool := false
  badbit : Bool := false
  deriving DecidableEq, Repr

/-- `std::ios::good()`. -/
def IStream.good (st : IStream) : Bool := !st.eofbit && !st.failbit && !st.badbit

/-- `std::isspace` in the classic locale (used by `std::ws`): tab, LF, VT, FF, CR, space. -/
def isSpaceC (c : CChar) : Bool := c == 32 || (9 ≤ c && c ≤ 13)

/-- `stream >> std::ws` (C++17 [istream.manip]); iomanip.hpp:52, 78. -/
def IStream.ws (st : IStream) : IStream :=
  if st.good then
    let rest := st.rest.dropWhile isSpaceC
    { st with rest := rest, eofbit := rest.isEmpty }
  else { st with failbit := true }

/-- The read loop, iomanip.hpp:53-56 and 79-82: `while (good() && peek() != eof && !forbidden(peek())) str += get();`. -/
def readLoop (forbidden : CharBitset) (st : IStream) (acc : Str) : IStream × Str :=
  if st.good then
    match h : st.rest with
    | [] => ({ st with eofbit := true }, acc)          -- `peek()` sets eofbit
    | c :: r =>
      if forbidden.contains c then (st, acc)
      else readLoop forbidden { st with rest := r } (acc ++ [c])
  else (st, acc)
  termination_by st.rest.length
  decreasing_by rw [h]; simp

/-- `stream >> as_enum(value)`, iomanip.hpp:48-60. Returns the stream and the target variable afterwards. -/
def asEnumExtract {V : Type} (md : EnumMd V) (st : IStream) (value : V) : IStream × V :=
  let (st, s) := readLoop enumForbiddenCharSet st.ws []
  if s.isEmpty then ({ st with failbit := true }, value)
  else
    let r := tryEnumFromString value s md
    if r.2 ≠ 0 then ({ st with failbit := true }, r.1) else (st, r.1)

/-- `stream >> as_flags(value)`, iomanip.hpp:74-87. -/
def asFlagsExtract {w : Nat} (md : EnumMd (BitVec w)) (st : IStream) (value : BitVec w) : IStream × BitVec w :=
  let (st, s) := readLoop flagsForbiddenCharSet st.ws []
  let r := flagsFromStringNoRaise value s md
  if r.2 ≠ 0 then ({ st with failbit := true }, r.1) else (st, r.1)

/-- `stream << as_enum(value)`, iomanip.hpp:44-47: the text written so far is extended by the name. -/
def asEnumInsert {V : Type} [DecidableEq V] (md : EnumMd V) (out : Str) (value : V) : Outcome Str :=
  (enumToString value md).mapVal (fun s => out ++ s)

/-- `stream << as_flags(value)`, iomanip.hpp:70-73. -/
def asFlagsInsert {w : Nat} (md : FlagsMd w) (out : Str) (value : BitVec w) : Outcome Str :=
  (flagsToString value md).mapVal (fun s => out ++ s)

/-! Client programs for the sequence round trip (not library code). -/

/-- `for (auto [sep, v] : items) stream << sep << as_enum(v);` -/
def writeEnums {V : Type} [DecidableEq V] (md : EnumMd V) (out : Str) : List (Str × V) → Outcome Str
  | [] => .ok out
  | (sep, v) :: rest => (asEnumInsert md (out ++ sep) v).bind (fun out => writeEnums md out rest)

/-- `for (i = 0; i != n; ++i) stream >> as_enum(v[i]);` with every target initialised to `init`. -/
def readEnums {V : Type} (md : EnumMd V) (init : V) : Nat → IStream → IStream × List V
  | 0, st => (st, [])
  | n + 1, st =>
    let (st, v) := asEnumExtract md st init
    let (st, vs) := readEnums md init n st
    (st, v :: vs)

/-- Write flags values separated by commas. -/
def writeFlags {w : Nat} (md : FlagsMd w) (out : Str) : List (BitVec w) → Outcome Str
  | [] => .ok out
  | [v] => asFlagsInsert md out v
  | v :: rest => (asFlagsInsert md out v).bind (fun out => writeFlags md (out ++ str ",") rest)

/-- `stream.get()` discarding the character. -/
def IStream.skip1 (st : IStream) : IStream :=
  if st.good then
    match st.rest with
    | [] => { st with eofbit := true, failbit := true }
    | _ :: r => { st with rest := r }
  else { st with failbit := true }

/-- Read `n` flags values separated by one character each. -/
def readFlags {w : Nat} (md : EnumMd (BitVec w)) (init : BitVec w) : Nat → IStream → IStream × List (BitVec w)
  | 0, st => (st, [])
  | 1, st =>
    let (st, v) := asFlagsExtract md st init
    (st, [v])
  | n + 2, st =>
    let (st, v) := asFlagsExtract md st init
    let (st, vs) := readFlags md init (n + 1) st.skip1
    (st, v :: vs)

end Makeshift
