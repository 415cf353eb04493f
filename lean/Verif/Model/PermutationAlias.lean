import Verif.Model.Permutation

/-!
# Permuting a range which contains its own index array

`apply_permutation` and `apply_reverse_permutation` (experimental/algorithm.hpp:26-88) when the objects designated by `indices[k]` are part of those designated
by `first[k]`: the index array is a column of the permuted `soa_span`, or is itself the permuted range.  An element is a pair of the remaining
columns and the index; swapping two elements swaps their indices as well.

The functions need not terminate in this case, so the loops have a bound on the number of tests of the condition; `none`: not finished.
-/

namespace Makeshift.PermAlias

variable {α : Type}

/-- `indices[p]`. -/
def index (rows : List (α × Int)) (p : Nat) : Option Int := rows[p]?.map Prod.snd

/-- `indices[p] = v;`  (within bounds.) -/
def setIndex (rows : List (α × Int)) (p : Nat) (v : Int) : List (α × Int) := rows.modify p fun r => (r.1, v)

/-- `swap(indices[a], indices[b]);` -/
def swapIndices (rows : List (α × Int)) (a b : Nat) : Option (List (α × Int)) :=
  match index rows a, index rows b with
  | some x, some y => some (setIndex (setIndex rows a y) b x)
  | _, _ => none

/-- The while loop of `apply_permutation`, experimental/algorithm.hpp:43-56; variables `i`, `current`. -/
def permInner (length i : Nat) : Nat → Nat → List (α × Int) → Option (PermEnd × List (α × Int))
  | 0, _, _ => none
  | fuel + 1, current, rows =>
    match index rows current with
    | none => some (.ub, rows)
    | some next =>
      if next = (i : Int) then some (.done, setIndex rows current current)                             -- 43, 56
      else if next < 0 ∨ next ≥ (length : Int) ∨ next = (current : Int) then
        some (.failFast, setIndex rows i next)                                                         -- 46-51
      else
        match swapAt rows current next.toNat with                                                      -- 52
        | none => some (.ub, rows)
        | some rows => permInner length i fuel next.toNat (setIndex rows current current)              -- 53-54

/-- The for loop of `apply_permutation`, experimental/algorithm.hpp:40-57; the second argument counts the remaining iterations. -/
def permOuter (length fuel : Nat) : Nat → Nat → List (α × Int) → Option (PermEnd × List (α × Int))
  | 0, _, rows => some (.done, rows)
  | m + 1, i, rows =>
    match permInner length i fuel i rows with
    | some (.done, rows) => permOuter length fuel m (i + 1) rows
    | r => r

/-- experimental/algorithm.hpp:26-58 `apply_permutation`. -/
def applyPermutation (fuel : Nat) (rows : List (α × Int)) : Option (PermEnd × List (α × Int)) := permOuter rows.length fuel rows.length 0 rows

/-- The while loop of `apply_reverse_permutation`, experimental/algorithm.hpp:79-86. -/
def revInner (length i : Nat) : Nat → List (α × Int) → Option (PermEnd × List (α × Int))
  | 0, _ => none
  | fuel + 1, rows =>
    match index rows i with
    | none => some (.ub, rows)
    | some next =>
      if next = (i : Int) then some (.done, rows)                                                      -- 79
      else if next < 0 ∨ next ≥ (length : Int) then some (.failFast, rows)                             -- 82
      else
        match index rows next.toNat with
        | none => some (.ub, rows)
        | some nn =>
          if next = nn then some (.failFast, rows)                                                     -- 83
          else
            match (swapAt rows i next.toNat).bind fun rows => swapIndices rows i next.toNat with       -- 84, 85
            | none => some (.ub, rows)
            | some rows => revInner length i fuel rows

/-- The for loop of `apply_reverse_permutation`, experimental/algorithm.hpp:77-87. -/
def revOuter (length fuel : Nat) : Nat → Nat → List (α × Int) → Option (PermEnd × List (α × Int))
  | 0, _, rows => some (.done, rows)
  | m + 1, i, rows =>
    match revInner length i fuel rows with
    | some (.done, rows) => revOuter length fuel m (i + 1) rows
    | r => r

/-- experimental/algorithm.hpp:63-88 `apply_reverse_permutation`. -/
def applyReversePermutation (fuel : Nat) (rows : List (α × Int)) : Option (PermEnd × List (α × Int)) := revOuter rows.length fuel rows.length 0 rows

end Makeshift.PermAlias
