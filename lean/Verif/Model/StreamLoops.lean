import Verif.Model.Iomanip

/-!
# Programs which read lists of unknown length

Client programs (not library code) which use `as_enum` and `as_flags` (iomanip.hpp lines 39-88): the loop `while (stream >> as_enum(v))`, and a
writer and a reader for documents made of enums, flags, pairs `a:b` and lists `[a,b,c]`.  The characters which the programs read themselves
(`,`, `:`, `[`, `]`) are among those that end a token (detail/serialize.hpp:78, 188).

The simplifications of `Model/Iomanip.lean` apply.
-/

namespace Makeshift.StreamLoops

/-- A stream as a condition: `!stream.fail()`. -/
def holds (st : IStream) : Bool := !st.failbit && !st.badbit

/-- `stream >> c` for a variable of type `char` ([istream.extractors], standard library): whitespace is skipped, one character is read. -/
def getChar (st : IStream) (c : CChar) : IStream × CChar :=
  if st.good then
    match st.rest.dropWhile isSpaceC with
    | [] => ({ st with rest := [], eofbit := true, failbit := true }, c)
    | x :: r => ({ st with rest := r }, x)
  else ({ st with failbit := true }, c)

/-- `stream.peek()` ([istream.unformatted], standard library); `none` is `eof()`. -/
def peek (st : IStream) : IStream × Option CChar :=
  if st.good then
    match st.rest with
    | [] => ({ st with eofbit := true }, none)
    | x :: _ => (st, some x)
  else ({ st with failbit := true }, none)

/-- `while (stream >> manip(v)) values.push_back(v);`, where `extract` is the extraction (iomanip.hpp:48-60 or 74-87).  The result is the stream, the
variable `v`, and `values`; `none`: the condition has been evaluated `n` times and the loop has not ended. -/
def whileExtract {V : Type} (extract : IStream → V → IStream × V) : Nat → IStream → V → Option (IStream × V × List V)
  | 0, _, _ => none
  | n + 1, st, v =>
    let r := extract st v
    if holds r.1 then (whileExtract extract n r.1 r.2).map fun q => (q.1, q.2.1, r.2 :: q.2.2) else some (r.1, r.2, [])

/-- The types of documents. -/
inductive Schema where
  /-- an enum, written with `as_enum` -/
  | enum (md : EnumMd Int)
  /-- a flags type, written with `as_flags` -/
  | flags (w : Nat) (md : FlagsMd w)
  /-- `a:b` -/
  | pair (s t : Schema)
  /-- `[a,b,c]` -/
  | list (s : Schema)

/-- The values of a document type. -/
def Val : Schema → Type
  | .enum _ => Int
  | .flags w _ => BitVec w
  | .pair s t => Val s × Val t
  | .list s => List (Val s)

/-- `for (i = 0; i != n; ++i) { if (i != 0) stream << ','; write(v[i]); }`. -/
def writeItems {α : Type} (write : α → Str → Outcome Str) : List α → Str → Outcome Str
  | [], out => .ok out
  | [a], out => write a out
  | a :: b :: r, out => (write a out).bind fun out => writeItems write (b :: r) (out ++ str ",")

/-- The writer; enums and flags are written by iomanip.hpp:44-47 and 70-73. -/
def write : (s : Schema) → Val s → Str → Outcome Str
  | .enum md, v, out => asEnumInsert (V := Int) md out v
  | .flags _ md, v, out => asFlagsInsert md out v
  | .pair s t, v, out => (write s v.1 out).bind fun out => write t v.2 (out ++ str ":")
  | .list s, vs, out => (writeItems (write s) vs (out ++ str "[")).bind fun out => .ok (out ++ str "]")

/-- `for (;;) { if (!read(v)) return false; values.push_back(v); if (!(stream >> c)) return false; if (c == ']') return true; if (c != ',') return false; }`; the
values read, or `none` for `return false`.  Outer `none`: the loop has not ended after `n` iterations. -/
def readItems {α : Type} (read : IStream → Option (IStream × Option α)) : Nat → IStream → Option (IStream × Option (List α))
  | 0, _ => none
  | n + 1, st =>
    (read st).bind fun
      | (st, none) => some (st, none)
      | (st, some a) =>
        let (st, c) := getChar st 0
        if !holds st then some (st, none)
        else if c = 93 then some (st, some [a])
        else if c = 44 then (readItems read n st).map fun q => (q.1, q.2.map (a :: ·))
        else some (st, none)

/-- The reader; enums and flags are read by iomanip.hpp:48-60 and 74-87.  A list starts with `if (!(stream >> c) || c != '[') return false;
if ((stream >> std::ws).peek() == ']') { stream.get(); return true; }`. -/
def read (n : Nat) : (s : Schema) → IStream → Option (IStream × Option (Val s))
  | .enum md, st =>
    let r := asEnumExtract (V := Int) md st 0
    some (r.1, if holds r.1 then some r.2 else none)
  | .flags w md, st =>
    let r := asFlagsExtract md.toEnumMd st 0#w
    some (r.1, if holds r.1 then some r.2 else none)
  | .pair s t, st =>
    (read n s st).bind fun
      | (st, none) => some (st, none)
      | (st, some a) =>
        let (st, c) := getChar st 0
        if holds st && c = 58 then (read n t st).map fun q => (q.1, q.2.map fun b => (a, b)) else some (st, none)
  | .list s, st =>
    let (st, c) := getChar st 0
    if holds st && c = 91 then
      let (st, p) := peek st.ws
      if p = some 93 then some (st.skip1, some ([] : List (Val s))) else readItems (read n s) n st
    else some (st, none)

end Makeshift.StreamLoops
