/-!
# Sizes of zipped ranges

Model of `detail/zip.hpp` lines 457-568.

A size is either a compile-time constant `dim_constant<N>` or a run-time `gsl::dim`; -1 is `unknown_size`.  The return type
`range_size_type<...>` (line 465) is not modelled: the value returned always has the alternative it selects (`C28_merge_kind`).
-/

namespace Makeshift

/-- A size argument: `dim_constant<n>` or a `gsl::dim` with value `n`. -/
inductive Size where
  | static (n : Int)
  | dyn (n : Int)
  deriving DecidableEq, Repr

/-- detail/zip.hpp:457. -/
abbrev unknownSize : Int := -1

/-- Result of merging. If there is both a static and a dynamic mismatch, the program is rejected at compile time; the model
reports whichever comes first. -/
inductive MergeResult where
  | ok (s : Size)
  | staticMismatch      -- static_assert "inconsistent sizes"
  | failFast            -- gsl_Expects
  deriving DecidableEq, Repr

/-- Sequencing. -/
def MergeResult.bind (r : MergeResult) (f : Size → MergeResult) : MergeResult :=
  match r with
  | ok s => f s
  | staticMismatch => staticMismatch
  | failFast => failFast

/-- detail/zip.hpp:467-493 `merge_sizes_0`. -/
def mergeSizes0 : Size → Size → MergeResult
  | .static N, .dyn n =>
    if N = unknownSize then .ok (.dyn n)                                            -- 467-470
    else if n = N ∨ n = unknownSize then .ok (.static N) else .failFast             -- 471-476
  | .static N, .static M =>                                                         -- 477-482
    if N = unknownSize ∨ M = unknownSize ∨ N = M then .ok (.static (if N = unknownSize then M else N))
    else .staticMismatch
  | .dyn n, .static N =>                                                            -- 483-487
    if N = unknownSize then .ok (.dyn n)
    else if n = N ∨ n = unknownSize then .ok (.static N) else .failFast
  | .dyn n, .dyn m =>                                                               -- 488-493
    if n = unknownSize ∨ m = unknownSize then .ok (.dyn unknownSize)
    else if n = m then .ok (.dyn n) else .failFast

/-- detail/zip.hpp:495-538 `merge_sizes`. -/
def mergeSizes : List Size → MergeResult
  | [] => .ok (.static unknownSize)                                                 -- 495-499
  | [s] => .ok s                                                                    -- 500-505
  | .static n1 :: .static n2 :: rest =>                                             -- 515-520
    match mergeSizes0 (.static n1) (.static n2) with
    | .ok s => mergeSizes (s :: rest)
    | e => e
  | .static n1 :: .dyn n2 :: rest =>                                                -- 521-526
    (mergeSizes (rest ++ [.dyn n2])).bind fun s => mergeSizes0 (.static n1) s
  | .dyn n1 :: .static n2 :: rest =>                                                -- 527-532
    (mergeSizes (rest ++ [.dyn n1])).bind fun s => mergeSizes0 (.static n2) s
  | .dyn n1 :: .dyn n2 :: rest =>                                                   -- 533-538
    (mergeSizes (rest ++ [.dyn n1])).bind fun s => mergeSizes0 s (.dyn n2)
  termination_by l => l.length

end Makeshift
