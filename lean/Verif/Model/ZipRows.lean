import Verif.Model.RangeObjects
import Verif.Model.PermutationOver

/-!
# Assigning to and swapping the elements of zipped ranges

Dereferencing an iterator of a zipped range yields a `std::tuple` of references (detail/algorithm.hpp:124, 146-149), one to an element of each range, or an
index for `range_index`; `value_type` is the tuple of the values (121).  This is what the operations of `std::tuple` ([tuple.assign],
[tuple.swap], [tuple.special]) do with them.  Objects are named by their addresses, as in `RangeObjects`.

Simplifications: the elements of all ranges but `range_index` are objects which can be assigned to; assignment and swap of elements do not throw; the
elements of a tuple are assigned and swapped from left to right.
-/

namespace Makeshift.ZipRows

open RangeObjects

variable {V : Type}

/-- `*it = *jt` and `*it = t` for a tuple `t` of references: assigns to each object.  Assigning to an index changes the temporary tuple only. -/
def assignRow : List (Arg Nat) → List (Arg Nat) → Mem V → Mem V
  | .elem d :: ds, .elem s :: ss, m => assignRow ds ss (m.store d (m s))
  | .idx _ :: ds, .idx _ :: ss, m => assignRow ds ss m
  | _, _, m => m

/-- `t.swap(u)` for tuples of references: swaps the objects. -/
def swapRow : List (Arg Nat) → List (Arg Nat) → Mem V → Mem V
  | .elem d :: ds, .elem s :: ss, m => swapRow ds ss ((m.store d (m s)).store s (m d))
  | .idx _ :: ds, .idx _ :: ss, m => swapRow ds ss m
  | _, _, m => m

/-- An element of `value_type`. -/
inductive Cell (V : Type) where
  | obj (v : V)
  | idx (i : Int)

/-- `value_type t = *it`: copies the objects (detail/algorithm.hpp:121). -/
def readRow (m : Mem V) (row : List (Arg Nat)) : List (Cell V) :=
  row.map fun
    | .elem l => .obj (m l)
    | .idx i => .idx i

/-- `*it = t` for a tuple `t` of values. -/
def writeRow : List (Arg Nat) → List (Cell V) → Mem V → Mem V
  | .elem d :: ds, .obj v :: vs, m => writeRow ds vs (m.store d v)
  | .idx _ :: ds, .idx _ :: vs, m => writeRow ds vs m
  | _, _, m => m

/-- `auto t = *it; *it = *jt; *jt = t;` (client code).  The type of `t` is `reference`. -/
def exchangeByAuto (a b : List (Arg Nat)) (m : Mem V) : Mem V :=
  let t := a
  assignRow b t (assignRow a b m)

/-- `value_type t = *it; *it = *jt; *jt = t;` (client code). -/
def exchangeByValue (a b : List (Arg Nat)) (m : Mem V) : Mem V :=
  let t := readRow m a
  writeRow b t (assignRow a b m)

/-- Whether `using std::swap; swap(first[i], first[j])` (algorithm.hpp:49-50, experimental/algorithm.hpp:33, 52, 84) compiles for an iterator of a zipped
range: the arguments are rvalues, which `swap(std::tuple<Ts...>&, std::tuple<Ts...>&)` does not accept; since C++23 there is
`swap(std::tuple<Ts...> const&, std::tuple<Ts...> const&)`, provided that all `Ts const` can be swapped, which `std::ptrdiff_t const` cannot. -/
def swapCompiles {α : Type} (cpp : Nat) (rs : List (Rng α)) : Bool := 23 ≤ cpp ∧ ∀ r ∈ rs, r.mode ≠ .rangeIndex

/-- `swap(first[i], first[j])` where `first` is `range_zip(ranges...).begin()`, if it compiles. -/
def swapElements (rs : List (Rng Nat)) (m : Mem V) (i j : Nat) : Option (Mem V) :=
  match zipSubscript rs (zipBegin rs) i, zipSubscript rs (zipBegin rs) j with
  | .ok a, .ok b => some (swapRow a b m)
  | _, _ => none

/-- `apply_permutation(first, last, indices)` for a zipped range of `n` elements; `none`: does not compile. -/
def permuteZip (cpp : Nat) (rs : List (Rng Nat)) (n : Nat) (s : PermMem (Mem V)) : Option (PermEnd × PermMem (Mem V)) :=
  if swapCompiles cpp rs then some (permOver (swapElements rs) n s) else none

/-- `apply_reverse_permutation(first, last, indices)`. -/
def revPermuteZip (cpp : Nat) (rs : List (Rng Nat)) (n : Nat) (s : PermMem (Mem V)) : Option (PermEnd × PermMem (Mem V)) :=
  if swapCompiles cpp rs then some (revOver (swapElements rs) n s) else none

/-- `shuffle(first, last, rng, dist)`. -/
def shuffleZip (cpp : Nat) (rs : List (Rng Nat)) (draw : Nat → Nat) (n : Nat) (m : Mem V) : Option (Option (Mem V)) :=
  if swapCompiles cpp rs then some (shuffleOver (swapElements rs) draw n m) else none

end Makeshift.ZipRows
