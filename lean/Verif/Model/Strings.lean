import Verif.Outcome

/-!
# Strings and character sets

Model of `detail/serialize.hpp` lines 27-63 (`char_bitset`, `trim`) and of the `std::string_view` members they
use (`find_first_of`, `find_first_not_of`, `find_last_not_of`, `substr`).
-/

namespace Makeshift

/-- `std::string_view::find_first_of(chars)`; `none` is `npos`.  (Standard library; used at
serialize.hpp:100, 219, 333.) -/
def findFirstOf (s chars : Str) : Option Nat := s.findIdx? (fun c => chars.contains c)

/-- `std::string_view::find_first_not_of(chars)`; `none` is `npos`.  (Standard library; used at
serialize.hpp:56.) -/
def findFirstNotOf (s chars : Str) : Option Nat := s.findIdx? (fun c => !chars.contains c)

/-- `std::string_view::find_last_not_of(chars)`; `none` is `npos`.  (Standard library; used at
serialize.hpp:61.) The index counts from the front. -/
def findLastNotOf (s chars : Str) : Option Nat :=
  (s.reverse.findIdx? (fun c => !chars.contains c)).map (fun k => s.length - 1 - k)

/-- `std::string_view::substr(pos, n)` for `pos <= size()`.  (Standard library; used at
serialize.hpp:62, 337.) -/
def substr (s : Str) (pos n : Nat) : Str := (s.drop pos).take n

/-- serialize.hpp:51 `whitespace_chars`. -/
def whitespaceChars : Str := str " \t\n\r"

/-- serialize.hpp:53-63 `trim`. -/
def trim (s : Str) : Str :=
  match findFirstNotOf s whitespaceChars with
  | none => []
  | some first =>
    match findLastNotOf s whitespaceChars with
    | none => substr s first (0 - first + 1)   -- not reachable: a first match implies a last match
    | some last => substr s first (last - first + 1)

/-- serialize.hpp:27-32 `char_bitset::data_`: four 64-bit words.  Simplification: `size_t` has 64 bits. -/
structure CharBitset where
  data : Fin 4 → BitVec 64

/-- Word index `uc / size_t_bits` (serialize.hpp:41, 47). -/
def CharBitset.word (c : CChar) : Fin 4 := ⟨c.toNat / 64, by have := c.toNat_lt; omega⟩

/-- One iteration of the constructor loop, serialize.hpp:40-41. -/
def CharBitset.insert (b : CharBitset) (c : CChar) : CharBitset :=
  { data := fun k => if k = word c then b.data k ||| (1#64 <<< (c.toNat % 64)) else b.data k }

/-- serialize.hpp:35-43 constructor. -/
def CharBitset.ofChars (chars : Str) : CharBitset :=
  chars.foldl CharBitset.insert { data := fun _ => 0#64 }

/-- serialize.hpp:44-48 `contains`. -/
def CharBitset.contains (b : CharBitset) (c : CChar) : Bool :=
  (b.data (word c) &&& (1#64 <<< (c.toNat % 64))) != 0#64

end Makeshift
