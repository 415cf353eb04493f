import Verif.Model.Permutation
import Verif.Model.Zip

/-!
# Permutations and range algorithms with contract checks switched on or off

`gsl_Expects` and `gsl_Assert` are macros of gsl-lite, which can be configured to evaluate to nothing.  The functions below follow
`experimental/algorithm.hpp` lines 26-88, `detail/zip.hpp` lines 249-282, 344-347 and 457-568, `detail/algorithm.hpp` lines 24-71 and
`algorithm.hpp` lines 90-103 once more, with the configuration as a parameter: what happens after a check is modelled as well.
gsl-lite is not part of the repository; that a check which is switched off does nothing at all is an assumption.

The simplifications of `Model.Permutation` and `Model.Zip` apply.  Without checks a loop need not terminate; loops are therefore given a
number of steps.  Swapping an element with itself leaves it unchanged.
-/

namespace Makeshift.Unchecked

open Makeshift

/-- Configuration of gsl-lite: are `gsl_Expects` and `gsl_Assert` evaluated? -/
inductive Checks where
  | on | off
  deriving DecidableEq, Repr

/-- `gsl_Expects(cond)`, `gsl_Assert(cond)`. -/
def Checks.expects : Checks → Bool → Outcome Unit
  | .on, cond => Outcome.expects cond
  | .off, _ => .ok ()

/-- A run of a permutation algorithm: not finished within the given number of steps, or finished.  `ub` is an out-of-bounds access. -/
inductive Run (α : Type) where
  | unfinished
  | done (s : PermState α)
  | failFast (s : PermState α)
  | ub
  deriving DecidableEq, Repr

/-- The while loop of `apply_permutation`, experimental/algorithm.hpp:43-56, with at most as many tests of the condition as the first
number says; variables `i`, `current`. -/
def permInner {α : Type} (c : Checks) (length i : Nat) : Nat → Nat → PermState α → Run α
  | 0, _, _ => .unfinished
  | fuel + 1, current, s =>
    match s.idx[current]? with
    | none => .ub
    | some next =>
      if next = (i : Int) then .done { s with idx := s.idx.set current current }           -- 43, 56
      else
        let bad := decide (next < 0) || decide (next ≥ (length : Int)) || decide (next = (current : Int))
        let s := if bad then { s with idx := s.idx.set i next } else s                     -- 46-49
        match c.expects (!bad) with                                                        -- 50
        | .ok _ =>
          if next < 0 then .ub
          else match swapAt s.elems current next.toNat with                                -- 52
            | none => .ub
            | some e => permInner c length i fuel next.toNat ⟨e, s.idx.set current current⟩ -- 53-54
        | _ => .failFast s

/-- The for loop of `apply_permutation`, experimental/algorithm.hpp:40-57; every while loop gets `fuel` steps. -/
def permOuter {α : Type} (c : Checks) (fuel length : Nat) : Nat → Nat → PermState α → Run α
  | 0, _, s => .done s
  | m + 1, i, s =>
    match permInner c length i fuel i s with
    | .done s => permOuter c fuel length m (i + 1) s
    | r => r

/-- experimental/algorithm.hpp:26-58 `apply_permutation`. -/
def applyPermutation {α : Type} (c : Checks) (fuel : Nat) (s : PermState α) : Run α :=
  permOuter c fuel s.elems.length s.elems.length 0 s

/-- The while loop of `apply_reverse_permutation`, experimental/algorithm.hpp:79-86.  The argument of the second check reads
`indices[next]`. -/
def revInner {α : Type} (c : Checks) (length i : Nat) : Nat → PermState α → Run α
  | 0, _ => .unfinished
  | fuel + 1, s =>
    match s.idx[i]? with
    | none => .ub
    | some next =>
      if next = (i : Int) then .done s                                                     -- 79
      else match c.expects (decide (next ≥ 0) && decide (next < (length : Int))) with      -- 82
        | .ok _ =>
          if next < 0 then .ub
          else match s.idx[next.toNat]? with
            | none => .ub
            | some nn =>
              match c.expects (decide (next ≠ nn)) with                                    -- 83
              | .ok _ =>
                match swapAt s.elems i next.toNat with                                     -- 84
                | none => .ub
                | some e => revInner c length i fuel ⟨e, (s.idx.set i nn).set next.toNat next⟩  -- 85
              | _ => .failFast s
        | _ => .failFast s

/-- The for loop of `apply_reverse_permutation`, experimental/algorithm.hpp:77-87. -/
def revOuter {α : Type} (c : Checks) (fuel length : Nat) : Nat → Nat → PermState α → Run α
  | 0, _, s => .done s
  | m + 1, i, s =>
    match revInner c length i fuel s with
    | .done s => revOuter c fuel length m (i + 1) s
    | r => r

/-- experimental/algorithm.hpp:63-88 `apply_reverse_permutation`. -/
def applyReversePermutation {α : Type} (c : Checks) (fuel : Nat) (s : PermState α) : Run α :=
  revOuter c fuel s.elems.length s.elems.length 0 s

/-! ## range algorithms -/

variable {α σ β : Type}

/-- A check inside `merge_sizes_0`. -/
def Checks.merge : Checks → Bool → Size → MergeResult
  | .on, cond, s => if cond then .ok s else .failFast
  | .off, _, s => .ok s

/-- detail/zip.hpp:467-493 `merge_sizes_0`.  The `static_assert` does not depend on the configuration. -/
def mergeSizes0 (c : Checks) : Size → Size → MergeResult
  | .static N, .dyn n =>
    if N = unknownSize then .ok (.dyn n)                                                   -- 467-470
    else c.merge (decide (n = N) || decide (n = unknownSize)) (.static N)                  -- 471-476
  | .static N, .static M =>                                                                -- 477-482
    if N = unknownSize ∨ M = unknownSize ∨ N = M then .ok (.static (if N = unknownSize then M else N))
    else .staticMismatch
  | .dyn n, .static N =>                                                                   -- 483-487
    if N = unknownSize then .ok (.dyn n)
    else c.merge (decide (n = N) || decide (n = unknownSize)) (.static N)
  | .dyn n, .dyn m =>                                                                      -- 488-493
    if n = unknownSize ∨ m = unknownSize then .ok (.dyn unknownSize)
    else c.merge (decide (n = m)) (.dyn n)

/-- detail/zip.hpp:495-538 `merge_sizes`. -/
def mergeSizes (c : Checks) : List Size → MergeResult
  | [] => .ok (.static unknownSize)                                                        -- 495-499
  | [s] => .ok s                                                                           -- 500-505
  | .static n1 :: .static n2 :: rest =>                                                    -- 515-520
    match mergeSizes0 c (.static n1) (.static n2) with
    | .ok s => mergeSizes c (s :: rest)
    | e => e
  | .static n1 :: .dyn n2 :: rest =>                                                       -- 521-526
    (mergeSizes c (rest ++ [.dyn n2])).bind fun s => mergeSizes0 c (.static n1) s
  | .dyn n1 :: .static n2 :: rest =>                                                       -- 527-532
    (mergeSizes c (rest ++ [.dyn n1])).bind fun s => mergeSizes0 c (.static n2) s
  | .dyn n1 :: .dyn n2 :: rest =>                                                          -- 533-538
    (mergeSizes c (rest ++ [.dyn n1])).bind fun s => mergeSizes0 c s (.dyn n2)
  termination_by l => l.length

/-- `_check_end(isEnd)` of a leaf: detail/zip.hpp:344-347 (pair), 295-297 (others). -/
def leafCheckEnd (c : Checks) (isEnd : Bool) (r : Rng α) (pos : Int) : Outcome Unit :=
  match r.mode with
  | .iteratorPair => c.expects (decide (pos = r.elems.length) == isEnd)
  | _ => .ok ()

/-- `is_end` with two arguments, detail/zip.hpp:261-277. -/
def isEnd2 (c : Checks) : Option Bool → Option Bool → Outcome (Option Bool)
  | some a, some b => (c.expects (a == b)).bind fun _ => .ok (some a)
  | some a, none => .ok (some a)
  | none, some b => .ok (some b)
  | none, none => .ok none

/-- `is_end`, detail/zip.hpp:249-282. -/
def isEndVal (c : Checks) : List (Option Bool) → Outcome (Option Bool)
  | [] => .ok none
  | [a] => .ok a
  | [a, b] => isEnd2 c a b
  | a :: b :: d :: es => (isEnd2 c a b).bind fun x => (isEndVal c (d :: es)).bind fun y => isEnd2 c x y

/-- detail/algorithm.hpp:24-71, 173-176 `it == sentinel`. -/
def zipIsEnd (c : Checks) (rs : List (Rng α)) (size : Size) (it : ZipIt) : Outcome Bool :=
  if size = .static unknownSize then
    (isEndVal c (leavesIsEnd rs it.pos)).bind fun e => .ok (e.getD false)
  else
    let isEnd := decide (it.i = size.value)
    (forLeaves (leafCheckEnd c isEnd) rs it.pos).bind fun _ => .ok isEnd

/-- The loop of algorithm.hpp:99-102 and its siblings, with at most `fuel` tests of the condition.  The body updates the state and says
whether to go on (`false`: `return`). -/
def zipLoop (c : Checks) (rs : List (Rng α)) (size : Size) (body : σ → List (Arg α) → σ × Bool) : Nat → ZipIt → σ → Result σ
  | 0, _, _ => .unfinished
  | fuel + 1, it, s =>
    match zipIsEnd c rs size it with
    | .ok true => .done s (.ok ())
    | .ok false =>
      match zipDeref rs it with
      | .ok args =>
        let r := body s args
        if r.2 then
          match zipInc rs it with
          | .ok it' => zipLoop c rs size body fuel it' r.1
          | .throw m => .done r.1 (.throw m)
          | .failFast => .done r.1 .failFast
          | .ub => .done r.1 .ub
        else .done r.1 (.ok ())
      | .throw m => .done s (.throw m)
      | .failFast => .done s .failFast
      | .ub => .done s .ub
    | .throw m => .done s (.throw m)
    | .failFast => .done s .failFast
    | .ub => .done s .ub

/-- Everything `range_for` and its siblings share: algorithm.hpp:94-98, 168-173, 218-222, ... -/
def zipAlgorithm (c : Checks) (rs : List (Rng α)) (body : σ → List (Arg α) → σ × Bool) (fuel : Nat) (init : σ) : Result σ :=
  if rs.all (fun r => r.mode = .rangeIndex) then .illFormed          -- static_assert "no range argument given"
  else match mergeSizes c (rs.map Rng.size) with
    | .staticMismatch => .illFormed
    | .failFast => .done init .failFast
    | .ok size => if sentinelWellFormed rs size then zipLoop c rs size body fuel (zipBegin rs) init else .illFormed

/-- algorithm.hpp:90-103 `range_for`; the state is the list of calls of the functor. -/
def rangeFor (c : Checks) (rs : List (Rng α)) (fuel : Nat) : Result (List (List (Arg α))) :=
  zipAlgorithm c rs (fun calls args => (calls ++ [args], true)) fuel []

/-- algorithm.hpp:164-179 `range_transform_reduce`. -/
def rangeTransformReduce {τ : Type} (c : Checks) (init : σ) (reduce : σ → τ → σ) (transform : List (Arg α) → τ) (rs : List (Rng α))
    (fuel : Nat) : Result σ :=
  zipAlgorithm c rs (fun acc args => (reduce acc (transform args), true)) fuel init

/-- algorithm.hpp:214-229 `range_count_if`; the state is `result`. -/
def rangeCountIf (c : Checks) (pred : List (Arg α) → Bool) (rs : List (Rng α)) (fuel : Nat) : Result Nat :=
  zipAlgorithm c rs (fun s args => (if pred args then s + 1 else s, true)) fuel 0

/-- algorithm.hpp:240-254 `range_all_of`; the state is the result. -/
def rangeAllOf (c : Checks) (pred : List (Arg α) → Bool) (rs : List (Rng α)) (fuel : Nat) : Result Bool :=
  zipAlgorithm c rs (fun s args => if !pred args then (false, false) else (s, true)) fuel true

end Makeshift.Unchecked
