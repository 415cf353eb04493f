import Verif.Model.Permutation

/-!
# Several calls of `apply_permutation` and `apply_reverse_permutation` on the same ranges

With gsl-lite configured to throw exceptions when a contract is violated (`gsl_CONFIG_CONTRACT_VIOLATION_THROWS`, as in
test/CMakeLists.txt:26), a program may catch the exception and use the ranges further.  The functions are those of
`Model/Permutation.lean`, whose simplifications apply.
-/

namespace Makeshift.PermRetry

open Makeshift

/-- The functions: experimental/algorithm.hpp:26-58 and 63-88. -/
inductive Call where
  | apply | reverse
  deriving DecidableEq, Repr

/-- One call. -/
def call {α : Type} : Call → PermState α → PermEnd × PermState α
  | .apply, s => applyPermutation s
  | .reverse, s => applyReversePermutation s

/-- Calls in sequence on the same element range and index range, each of them in a `try` block: how they end, and the ranges afterwards.
After undefined behaviour nothing is known. -/
def calls {α : Type} : List Call → PermState α → List PermEnd × PermState α
  | [], s => ([], s)
  | c :: cs, s =>
    match call c s with
    | (.ub, s) => ([.ub], s)
    | (e, s) => (e :: (calls cs s).1, (calls cs s).2)

end Makeshift.PermRetry
