import Verif.Model.Fill
import Verif.Model.PermutationInt
import Verif.Model.ShuffleDist

/-!
# Shuffling by indices

A client program which shuffles several ranges in the same way, by shuffling an array of indices.  It is put together of `range_iota`
(algorithm.hpp:109-119), `shuffle` (algorithm.hpp:34-53) and `apply_permutation` (experimental/algorithm.hpp:26-58), as modelled in the files imported here:

    range_iota(indices, I(0));
    shuffle(indices.begin(), indices.end(), rng, std::uniform_int_distribution<D>{ });
    auto copy = indices;
    apply_permutation(rows.begin(), rows.end(), indices.begin());
    apply_permutation(others.begin(), others.end(), copy.begin());
-/

namespace Makeshift.ShuffleByIndex

/-- The first two statements, with indices of type `ty` and a distribution over `t`. -/
def shuffleIndices (ty t : IntTy) (dist : Nat → Int → Int) (indices : List Int) : Outcome (List Int) :=
  (rangeIota ty.inc id indices 0).bind fun idx => ShuffleDist.shuffle t dist idx

/-- The whole program; the number of iterations of `apply_permutation` is at most `fuel`.  If the first call of `apply_permutation` does not return, the
result is that of this call. -/
def shuffleBoth {α β : Type} (ty t : IntTy) (dist : Nat → Int → Int) (rows : List α) (others : List β) (indices : List Int) (fuel : Nat) :
    Outcome (Option (PermEnd × List α × List β)) :=
  (shuffleIndices ty t dist indices).bind fun idx =>
    match PermInt.applyPermutation ty fuel ⟨rows, idx⟩ with
    | some (.done, s) => .ok ((PermInt.applyPermutation ty fuel ⟨others, idx⟩).map fun r => (r.1, s.elems, r.2.elems))
    | some (e, s) => .ok (some (e, s.elems, others))
    | none => .ok none

end Makeshift.ShuffleByIndex
