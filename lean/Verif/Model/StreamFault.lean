import Verif.Model.StreamFormat

/-!
# Extraction from streams with a failing buffer or another locale

Model of `iomanip.hpp` lines 48-60 and 74-87 on input streams whose stream buffer may throw (a file which cannot be read any further, a
connection which breaks), and which are imbued with a locale other than the classic one.  In place of `IStream.ws` and `readLoopX` of
`Model/Iomanip.lean` and `Model/StreamFormat.lean`, with the parts of `std::istream` needed: [istream.manip] `std::ws`,
[istream.unformatted] `peek` and `get` ("If an exception is thrown during input then ios::badbit is turned on in *this's error state.  If
`(exceptions()&badbit) != 0` then the exception is rethrown").

Simplifications: a buffer which has failed keeps failing; a character which has been peeked at can be extracted without failure; the sentry
of an unformatted input function does not fail on a good stream (nothing is tied to the stream).
-/

namespace Makeshift

/-- What leaves `operator >>`: the exception of the stream, or the one thrown by its buffer. -/
inductive StreamExc
  | failure                    -- `std::ios_base::failure`
  | buffer                     -- what the buffer threw
  deriving DecidableEq, Repr

/-- Where the characters come from.  After the characters `IStream.rest`, the buffer either reports the end of the input, or throws
(`faulty`).  `blank c` is `std::isspace(c, stream.getloc())`. -/
structure Source where
  faulty : Bool := false
  blank : CChar → Bool := isSpaceC

/-- `clear` in `setstate`, [iostate.flags]. -/
def IStream.raise (mask : IoMask) (st : IStream) : Option StreamExc := if st.throws mask then some .failure else none

/-- What an unformatted input function does when the buffer has nothing more to give: at the end of the input, `setstate(eofbit)`; if the
buffer throws, `badbit`, and the exception is passed on if `badbit` is in the mask. -/
def IStream.exhausted (src : Source) (mask : IoMask) (st : IStream) : IStream × Option StreamExc :=
  if src.faulty then ({ st with rest := [], badbit := true }, if mask.bad then some .buffer else none)
  else
    let st' := ({ st with rest := [], eofbit := true } : IStream)
    (st', st'.raise mask)

/-- `stream >> std::ws`; iomanip.hpp:52, 78. -/
def IStream.wsF (src : Source) (mask : IoMask) (st : IStream) : IStream × Option StreamExc :=
  if st.good then
    match st.rest.dropWhile src.blank with
    | [] => st.exhausted src mask
    | c :: r => ({ st with rest := c :: r }, none)
  else
    let st' := ({ st with failbit := true } : IStream)
    (st', st'.raise mask)

/-- The read loop, iomanip.hpp:53-56 and 79-82.  If `peek()` sets `badbit` without throwing, it returns `eof()`, which ends the loop. -/
def readLoopF (src : Source) (mask : IoMask) (forbidden : CharBitset) (st : IStream) (acc : Str) : IStream × Str × Option StreamExc :=
  if st.good then
    match h : st.rest with
    | [] => ((st.exhausted src mask).1, acc, (st.exhausted src mask).2)
    | c :: r =>
      if forbidden.contains c then (st, acc, none)
      else readLoopF src mask forbidden { st with rest := r } (acc ++ [c])
  else (st, acc, none)
  termination_by st.rest.length
  decreasing_by rw [h]; simp

/-- Reading a token, iomanip.hpp:50-56 and 76-82. -/
def readTokenF (src : Source) (mask : IoMask) (forbidden : CharBitset) (st : IStream) : IStream × Str × Option StreamExc :=
  match st.wsF src mask with
  | (st, some e) => (st, [], some e)
  | (st, none) => readLoopF src mask forbidden st []

/-- `stream >> as_enum(value)`, iomanip.hpp:48-60: stream, target, and what is thrown. -/
def asEnumExtractSrc {V : Type} (src : Source) (md : EnumMd V) (mask : IoMask) (st : IStream) (value : V) :
    IStream × V × Option StreamExc :=
  match readTokenF src mask enumForbiddenCharSet st with
  | (st, _, some e) => (st, value, some e)
  | (st, s, none) =>
    let fail := ({ st with failbit := true } : IStream)
    if s.isEmpty then (fail, value, fail.raise mask)
    else
      let r := tryEnumFromString value s md
      if r.2 ≠ 0 then (fail, r.1, fail.raise mask) else (st, r.1, none)

/-- `stream >> as_flags(value)`, iomanip.hpp:74-87. -/
def asFlagsExtractSrc {w : Nat} (src : Source) (md : EnumMd (BitVec w)) (mask : IoMask) (st : IStream) (value : BitVec w) :
    IStream × BitVec w × Option StreamExc :=
  match readTokenF src mask flagsForbiddenCharSet st with
  | (st, _, some e) => (st, value, some e)
  | (st, s, none) =>
    let r := flagsFromStringNoRaise value s md
    let fail := ({ st with failbit := true } : IStream)
    if r.2 ≠ 0 then (fail, r.1, fail.raise mask) else (st, r.1, none)

end Makeshift
