import Verif.Model.StreamFault

/-!
# Insertion into streams whose buffer does not take everything

Model of `iomanip.hpp` lines 44-47 and 70-73 on output streams whose stream buffer stops accepting characters (a file system which is full, a
connection which breaks, a fixed-size array).  In place of `OStream.insert` of `Model/StreamFormat.lean`, with [ostream.formatted.reqmts]: "If the
generation fails, then the formatted output function does `setstate(ios_base::failbit)`, which might throw an exception.  If an exception is thrown
during output, then `ios::badbit` is turned on in `*this`'s error state.  If `(exceptions() & badbit) != 0` then the exception is rethrown."

Simplifications: a buffer which has refused a character keeps refusing; the field width is reset when a buffer refuses characters and kept when
it throws (no theorem depends on it); nothing is tied to the stream.
-/

namespace Makeshift

/-- Where the characters go: the number of characters the buffer accepts, whether it throws or reports an error when there is no more room, and the bit which
the stream sets in the latter case: `failbit` ([ostream.formatted.reqmts]) or `badbit` (as libstdc++ does). -/
structure Sink where
  room : Nat
  throws : Bool := false
  setsBad : Bool := false
  deriving DecidableEq, Repr

/-- What is thrown by `setstate` in this state. -/
def OStream.raise (mask : IoMask) (st : OStream) : Option StreamExc := if mask.hits st.eofbit st.failbit st.badbit then some .failure else none

/-- `stream << s` for a string ([string.io], [ostream.formatted.reqmts], [ostream.sentry]): stream, and what is thrown. -/
def OStream.insertS (sink : Sink) (mask : IoMask) (st : OStream) (s : Str) : OStream × Option StreamExc :=
  if st.good then
    let text := st.padded s
    let out := st.out ++ text.take (sink.room - st.out.length)
    if text.length ≤ sink.room - st.out.length then ({ st with out := out, width := 0 }, none)
    else if sink.throws then ({ st with out := out, badbit := true }, if mask.bad then some .buffer else none)
    else
      let st' : OStream := { st with out := out, width := 0, failbit := !sink.setsBad, badbit := sink.setsBad }
      (st', st'.raise mask)
  else
    let st' : OStream := { st with failbit := true }
    (st', st'.raise mask)

/-- `stream << as_enum(value)`, iomanip.hpp:44-47. -/
def asEnumInsertS {V : Type} [DecidableEq V] (sink : Sink) (md : EnumMd V) (mask : IoMask) (st : OStream) (value : V) :
    Outcome (OStream × Option StreamExc) :=
  (enumToString value md).bind fun s => .ok (st.insertS sink mask s)

/-- `stream << as_flags(value)`, iomanip.hpp:70-73. -/
def asFlagsInsertS {w : Nat} (sink : Sink) (md : FlagsMd w) (mask : IoMask) (st : OStream) (value : BitVec w) :
    Outcome (OStream × Option StreamExc) :=
  (flagsToString value md).bind fun s => .ok (st.insertS sink mask s)

/-! Client programs (not library code). -/

/-- What a program inserts into a stream: a string, `as_enum(v)`, `as_flags(f)`, `std::setw(n)`, `std::setfill(c)`, `std::left` or `std::right`. -/
inductive OutItem (V : Type) (w : Nat) where
  | text (s : Str)
  | enum (v : V)
  | flags (f : BitVec w)
  | setw (n : Nat)
  | setfill (c : CChar)
  | adjust (left : Bool)

/-- Insert one item. -/
def putItem {V : Type} [DecidableEq V] {w : Nat} (sink : Sink) (emd : EnumMd V) (fmd : FlagsMd w) (mask : IoMask) (st : OStream) :
    OutItem V w → Outcome (OStream × Option StreamExc)
  | .text s => .ok (st.insertS sink mask s)
  | .enum v => asEnumInsertS sink emd mask st v
  | .flags f => asFlagsInsertS sink fmd mask st f
  | .setw n => .ok ({ st with width := n }, none)
  | .setfill c => .ok ({ st with fill := c }, none)
  | .adjust l => .ok ({ st with left := l }, none)

/-- `stream << item1 << item2 << ...`, up to the first exception. -/
def putItems {V : Type} [DecidableEq V] {w : Nat} (sink : Sink) (emd : EnumMd V) (fmd : FlagsMd w) (mask : IoMask) (st : OStream) :
    List (OutItem V w) → Outcome (OStream × Option StreamExc)
  | [] => .ok (st, none)
  | it :: rest =>
    (putItem sink emd fmd mask st it).bind fun r =>
      match r.2 with
      | some e => .ok (r.1, some e)
      | none => putItems sink emd fmd mask r.1 rest

/-- `for (auto [sep, v] : items) stream << sep << as_enum(v);` -/
def enumItems {V : Type} (w : Nat) (items : List (Str × V)) : List (OutItem V w) := items.flatMap fun it => [.text it.1, .enum it.2]

/-- `for (i = 0; i != n; ++i) { if (i != 0) stream << ","; stream << as_flags(v[i]); }` -/
def flagsItems {w : Nat} (V : Type) : List (BitVec w) → List (OutItem V w)
  | [] => []
  | [v] => [.flags v]
  | v :: rest => .flags v :: .text (str ",") :: flagsItems V rest

end Makeshift
