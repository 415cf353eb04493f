import Verif.Model.Permutation
import Verif.Model.Fill

/-!
# `apply_permutation` and `apply_reverse_permutation` with a bounded index type

The functions of `Verif.Model.Permutation` compute with unbounded integers.  Here `Diff`, the value type of the index range, is an
integer type: the length is converted to `Diff` (experimental/algorithm.hpp:38, 74), and the loop variable is a `Diff` (40, 76).  The
inner loops compute no new numbers, they only compare and copy values of type `Diff`, and are taken from there.
-/

namespace Makeshift.PermInt

/-- The for loop, experimental/algorithm.hpp:40-57 and 76-87, for a given body.  `none`: the fuel (first argument) does not suffice;
the code would continue. -/
def outer {α : Type} (ty : IntTy) (body : Int → PermState α → PermEnd × PermState α) (length : Int) :
    Nat → Int → PermState α → Option (PermEnd × PermState α)
  | 0, _, _ => none
  | fuel + 1, i, s =>
    if i < length then
      match body i s with
      | (.done, s) =>
        match ty.inc i with
        | .ok i => outer ty body length fuel i s
        | _ => some (.ub, s)
      | r => some r
    else some (.done, s)

/-- experimental/algorithm.hpp:26-58 `apply_permutation`, with `Diff = ty`. -/
def applyPermutation {α : Type} (ty : IntTy) (fuel : Nat) (s : PermState α) : Option (PermEnd × PermState α) :=
  let length := ty.wrap s.elems.length
  outer ty (fun i s => applyPermInner length.toNat i.toNat i.toNat s) length fuel 0 s

/-- experimental/algorithm.hpp:63-88 `apply_reverse_permutation`, with `Diff = ty`. -/
def applyReversePermutation {α : Type} (ty : IntTy) (fuel : Nat) (s : PermState α) : Option (PermEnd × PermState α) :=
  let length := ty.wrap s.elems.length
  outer ty (fun i s => applyRevInner length.toNat i.toNat s) length fuel 0 s

end Makeshift.PermInt
