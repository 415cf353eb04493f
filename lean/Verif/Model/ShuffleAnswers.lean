import Verif.Model.Permutation
import Verif.Outcome

/-! # `shuffle()` with a generator which may throw or let its numbers depend on each other -/

namespace Makeshift.ShuffleAnswers

/-- The user's generator and distribution: what they do when they are asked for the next number, given the numbers drawn so far. -/
abbrev Answers := List Nat → Outcome Nat

/-- What has happened: the numbers drawn, the range afterwards, and how the call ended. -/
structure Run (α : Type) where
  draws : List Nat
  elems : List α
  out : Outcome Unit
  deriving DecidableEq, Repr

/-- algorithm.hpp:44-52, entered with the given `i`.  Simplified: the distribution does not yield negative numbers, and swapping does not throw (for these see C116 and C102). -/
def loop {α : Type} (w : Answers) : Nat → List Nat → List α → Run α
  | 0, made, l => ⟨made, l, .ok ()⟩
  | i + 1, made, l =>
    match w made with                                                        -- 46
    | .ok j =>
      if i + 1 ≠ j then                                                      -- 47
        match swapAt l (i + 1) j with                                        -- 50
        | some l => loop w i (made ++ [j]) l
        | none => ⟨made ++ [j], l, .ub⟩
      else loop w i (made ++ [j]) l
    | .throw e => ⟨made, l, .throw e⟩
    | .failFast => ⟨made, l, .failFast⟩
    | .ub => ⟨made, l, .ub⟩

/-- algorithm.hpp:34-53 `shuffle`. -/
def shuffle {α : Type} (w : Answers) (l : List α) : Run α := loop w (l.length - 1) [] l

end Makeshift.ShuffleAnswers
