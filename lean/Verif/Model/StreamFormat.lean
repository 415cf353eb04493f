import Verif.Model.Iomanip

/-!
# Stream manipulators with formatting and exceptions

Model of `iomanip.hpp` lines 39-88 on streams with a field width, a fill character, an adjustment and an exception mask, in place of the
simplified streams of `Model/Iomanip.lean`; with the parts of `std::ostream` and `std::istream` which are needed: insertion of a string
([string.io], [ostream.formatted.reqmts]), `setstate` ([iostate.flags]), `std::ws` and `peek`.

Simplifications: stream buffers do not fail; the sentry of an output stream which is not good sets `failbit`, as [ostream.sentry]
permits.
-/

namespace Makeshift

/-- `std::ios::exceptions()`. -/
structure IoMask where
  eof : Bool := false
  fail : Bool := false
  bad : Bool := false
  deriving DecidableEq, Repr

/-- State of a `std::ostream`: the characters written, `width()`, `fill()`, whether `flags() & adjustfield` is `left`, the state bits. -/
structure OStream where
  out : Str := []
  width : Nat := 0
  fill : CChar := 32
  left : Bool := false
  eofbit : Bool := false
  failbit : Bool := false
  badbit : Bool := false
  deriving DecidableEq, Repr

/-- `std::ios::good()`. -/
def OStream.good (st : OStream) : Bool := !st.eofbit && !st.failbit && !st.badbit

/-- [iostate.flags] `clear(state)` throws if `(state & exceptions()) != 0`. -/
def IoMask.hits (mask : IoMask) (eofbit failbit badbit : Bool) : Bool := (mask.eof && eofbit) || (mask.fail && failbit) || (mask.bad && badbit)

/-- [ostream.formatted.reqmts], [string.io] The characters inserted for a string: filled up to `width()` on the right for `left`, on
the left otherwise. -/
def OStream.padded (st : OStream) (s : Str) : Str :=
  let fill := List.replicate (st.width - s.length) st.fill
  if st.left then s ++ fill else fill ++ s

/-- `stream << s` for a string; the result says whether `std::ios_base::failure` is thrown. -/
def OStream.insert (mask : IoMask) (st : OStream) (s : Str) : OStream × Bool :=
  if st.good then ({ st with out := st.out ++ st.padded s, width := 0 }, false)
  else ({ st with failbit := true }, mask.hits st.eofbit true st.badbit)

/-- `stream << as_enum(value)`, iomanip.hpp:44-47. -/
def asEnumInsertF {V : Type} [DecidableEq V] (md : EnumMd V) (mask : IoMask) (st : OStream) (value : V) : Outcome (OStream × Bool) :=
  (enumToString value md).bind fun s => .ok (st.insert mask s)

/-- `stream << as_flags(value)`, iomanip.hpp:70-73. -/
def asFlagsInsertF {w : Nat} (md : FlagsMd w) (mask : IoMask) (st : OStream) (value : BitVec w) : Outcome (OStream × Bool) :=
  (flagsToString value md).bind fun s => .ok (st.insert mask s)

/-- Whether a call of `setstate` that leaves an input stream in this state throws. -/
def IStream.throws (mask : IoMask) (st : IStream) : Bool := mask.hits st.eofbit st.failbit st.badbit

/-- `stream >> std::ws`; iomanip.hpp:52, 78.  `setstate` is called if the end is reached, or by the sentry. -/
def IStream.wsX (mask : IoMask) (st : IStream) : IStream × Bool :=
  let st' := st.ws
  (st', (!st.good || st'.eofbit) && st'.throws mask)

/-- The read loop, iomanip.hpp:53-56 and 79-82; `peek()` calls `setstate` at the end. -/
def readLoopX (mask : IoMask) (forbidden : CharBitset) (st : IStream) (acc : Str) : IStream × Str × Bool :=
  if st.good then
    match h : st.rest with
    | [] => ({ st with eofbit := true }, acc, ({ st with eofbit := true } : IStream).throws mask)
    | c :: r =>
      if forbidden.contains c then (st, acc, false)
      else readLoopX mask forbidden { st with rest := r } (acc ++ [c])
  else (st, acc, false)
  termination_by st.rest.length
  decreasing_by rw [h]; simp

/-- Reading a token, iomanip.hpp:50-56 and 76-82. -/
def readTokenX (mask : IoMask) (forbidden : CharBitset) (st : IStream) : IStream × Str × Bool :=
  let (st, threw) := st.wsX mask
  if threw then (st, [], true) else readLoopX mask forbidden st []

/-- `stream >> as_enum(value)`, iomanip.hpp:48-60: stream, target and whether `std::ios_base::failure` is thrown. -/
def asEnumExtractX {V : Type} (md : EnumMd V) (mask : IoMask) (st : IStream) (value : V) : IStream × V × Bool :=
  let (st, s, threw) := readTokenX mask enumForbiddenCharSet st
  if threw then (st, value, true) else
  let fail := ({ st with failbit := true } : IStream)
  if s.isEmpty then (fail, value, fail.throws mask)
  else
    let r := tryEnumFromString value s md
    if r.2 ≠ 0 then (fail, r.1, fail.throws mask) else (st, r.1, false)

/-- `stream >> as_flags(value)`, iomanip.hpp:74-87. -/
def asFlagsExtractX {w : Nat} (md : EnumMd (BitVec w)) (mask : IoMask) (st : IStream) (value : BitVec w) : IStream × BitVec w × Bool :=
  let (st, s, threw) := readTokenX mask flagsForbiddenCharSet st
  if threw then (st, value, true) else
  let r := flagsFromStringNoRaise value s md
  let fail := ({ st with failbit := true } : IStream)
  if r.2 ≠ 0 then (fail, r.1, fail.throws mask) else (st, r.1, false)

/-! Client programs (not library code). -/

/-- A field of a table: what is written before it, `std::setw(width)`, and `std::left` or `std::right`. -/
structure Field where
  sep : Str
  width : Nat
  left : Bool

/-- `for (auto [f, v] : items) stream << f.sep << std::setw(f.width) << (f.left ? std::left : std::right) << as_enum(v);` on a stream
without exceptions. -/
def writeEnumTable {V : Type} [DecidableEq V] (md : EnumMd V) (st : OStream) : List (Field × V) → Outcome OStream
  | [] => .ok st
  | (f, v) :: rest =>
    (asEnumInsertF md {} { (st.insert {} f.sep).1 with width := f.width, left := f.left } v).bind fun r => writeEnumTable md r.1 rest

/-- The same with `as_flags`. -/
def writeFlagsTable {w : Nat} (md : FlagsMd w) (st : OStream) : List (Field × BitVec w) → Outcome OStream
  | [] => .ok st
  | (f, v) :: rest =>
    (asFlagsInsertF md {} { (st.insert {} f.sep).1 with width := f.width, left := f.left } v).bind fun r => writeFlagsTable md r.1 rest

end Makeshift
