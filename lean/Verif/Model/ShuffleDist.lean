import Verif.Model.MachineInt
import Verif.Model.Permutation

/-!
# `shuffle` with a distribution over a given integer type

Model of `algorithm.hpp` lines 34-53 with the conversions between the difference type of the iterators and the integer type of the
distribution, which `Model/Permutation.lean` leaves out.

Simplification: the difference type is `std::ptrdiff_t`.
-/

namespace Makeshift.ShuffleDist

/-- `dist(rng, Param(0, b))` for a standard-conforming distribution over `t`: undefined unless `0 <= b` ([rand.dist.uni.int]).  `dist k b` is
the value drawn in the step of the loop for position `k`. -/
def draw (dist : Nat → Int → Int) (k : Nat) (b : Int) : Outcome Int :=
  if b < 0 then .ub else .ok (dist k b)

/-- The loop of algorithm.hpp:44-52 entered with `i = first argument`; `t` is the result type of the distribution, to which `Param(0, i)`
converts the bound; line 46 converts the result back to `Diff`. -/
def shuffleLoop {α : Type} (t : IntTy) (dist : Nat → Int → Int) : Nat → List α → Outcome (List α)
  | 0, l => .ok l
  | i + 1, l =>
    (draw dist (i + 1) (t.wrap ((i + 1 : Nat) : Int))).bind fun v =>
    let j := IntTy.ptrdiffT.wrap v                                    -- 46
    if ((i + 1 : Nat) : Int) ≠ j then                                 -- 47
      if j < 0 then .ub
      else
        match swapAt l (i + 1) j.toNat with                           -- 50
        | none => .ub
        | some l => shuffleLoop t dist i l
    else shuffleLoop t dist i l

/-- algorithm.hpp:34-53 `shuffle`. -/
def shuffle {α : Type} (t : IntTy) (dist : Nat → Int → Int) (l : List α) : Outcome (List α) :=
  shuffleLoop t dist (l.length - 1) l

end Makeshift.ShuffleDist
