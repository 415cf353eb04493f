import Verif.Model.SearchCost

/-!
# Lookup of runtime values with operators which may throw or change their minds

The general searches of Model/Expand.lean (detail/variant.hpp:83-121, 132-137) once more, for types of the user with operators `<` and `==` which are executed at run time and
which may have side effects, answer differently at different times, or throw.  Whether the list is sorted is determined by the compiler (line 135), so it is a parameter here.
-/

namespace Makeshift.SearchAnswers

/-- What the user's operators answer, given all comparisons up to and including the present one; the outcome may be an exception. -/
abbrev Answers := List Comparison → Outcome Bool

/-- A comparison which does not return ends the search. -/
def pass (o : Outcome Bool) : Outcome Int := o.bind fun _ => .ok (-1)

/-- detail/variant.hpp:89-110, the binary search loop, in a list of `n` values and after the comparisons `made`: all comparisons made, and the result.  Reading outside the list is
undefined behaviour. -/
def binaryLoop (w : Answers) (n : Nat) (first last : Int) (made : List Comparison) : List Comparison × Outcome Int :=
  if h : last - first > 1 then
    let half := first + (last - first) / 2
    if 0 ≤ half ∧ half < n then
      match w (made ++ [.listedLess half]) with
      | .ok true => binaryLoop w n (half + 1) last (made ++ [.listedLess half])
      | .ok false =>
        match w (made ++ [.listedLess half] ++ [.valueLess half]) with
        | .ok true => binaryLoop w n first half (made ++ [.listedLess half] ++ [.valueLess half])
        | .ok false =>
          if hl : half + 1 = last then (made ++ [.listedLess half] ++ [.valueLess half], .ok half)
          else binaryLoop w n first (half + 1) (made ++ [.listedLess half] ++ [.valueLess half])
        | o => (made ++ [.listedLess half] ++ [.valueLess half], pass o)
      | o => (made ++ [.listedLess half], pass o)
    else (made, .ub)
  else if last - first = 1 then
    if 0 ≤ first ∧ first < n then
      match w (made ++ [.equal first]) with
      | .ok b => (made ++ [.equal first], .ok (if b then first else -1))
      | o => (made ++ [.equal first], pass o)
    else (made, .ub)
  else (made, .ok (-1))
  termination_by (last - first).toNat
  decreasing_by
    all_goals omega

/-- detail/variant.hpp:112-121, the linear search from index `i` on, with `left` elements left. -/
def linearLoop (w : Answers) (i : Int) : Nat → List Comparison → List Comparison × Outcome Int
  | 0, made => (made, .ok (-1))
  | left + 1, made =>
    match w (made ++ [.equal i]) with
    | .ok true => (made ++ [.equal i], .ok i)
    | .ok false => linearLoop w (i + 1) left (made ++ [.equal i])
    | o => (made ++ [.equal i], pass o)

/-- detail/variant.hpp:132-137 `search_value_index_1`, non-contiguous case, in a list of `n` values. -/
def search (w : Answers) (sorted : Bool) (n : Nat) : List Comparison × Outcome Int :=
  if sorted then binaryLoop w n 0 n [] else linearLoop w 0 n []

end Makeshift.SearchAnswers
