import Verif.Model.ZipRows
import Verif.Model.RowPrograms

/-!
# Programs which work on the elements of zipped ranges

The programs of Model/RowPrograms.lean, working on `range_zip(ranges...)` by iterators.  None of the ranges is `range_index`.
-/

namespace Makeshift.ZipRows

open RangeObjects
open Makeshift.Soa (RowProg)

variable {V β : Type}

/-- The values of the objects of a tuple of references. -/
def rowValues (m : Mem V) (row : List (Arg Nat)) : List V :=
  (readRow m row).filterMap fun
    | .obj v => some v
    | .idx _ => none

/-- The program works on the `n` elements from the iterator `it` on: `it[i]` (detail/algorithm.hpp:206-209) is element `i`.  A part is given by the iterator
`it + offset` (221-225) and a number of elements, up to the end if that is `std::size_t(-1)`.  Elements are swapped by `it[i].swap(it[j])`-like functions, see
`swapRow`. -/
def runZip (rs : List (Rng Nat)) : (it : ZipIt) → (n : Nat) → RowProg V β → Mem V → Outcome (β × Mem V)
  | _, _, .done x, m => .ok (x, m)
  | it, n, .load i k, m => (zipSubscript rs it i).bind fun a => runZip rs it n (k (rowValues m a)) m
  | it, n, .loadElem i c k, m => (zipSubscript rs it i).bind fun a =>
    match a[c]? with
    | some (.elem l) => runZip rs it n (k (m l)) m
    | _ => .ub
  | it, n, .store i t p, m => (zipSubscript rs it i).bind fun a => runZip rs it n p (writeRow a (t.map .obj) m)
  | it, n, .storeElem i c v p, m => (zipSubscript rs it i).bind fun a =>
    match a[c]? with
    | some (.elem l) => runZip rs it n p (m.store l v)
    | _ => .ub
  | it, n, .copy i j p, m => (zipSubscript rs it i).bind fun a => (zipSubscript rs it j).bind fun b => runZip rs it n p (assignRow a b m)
  | it, n, .swap i j p, m => (zipSubscript rs it i).bind fun a => (zipSubscript rs it j).bind fun b => runZip rs it n p (swapRow a b m)
  | it, n, .part offset count body k, m => (zipPlus rs it offset).bind fun it' =>
    (runZip rs it' (if count = 2 ^ 64 - 1 then n - offset else count) body m).bind fun (x, m) => runZip rs it n (k x) m

end Makeshift.ZipRows
