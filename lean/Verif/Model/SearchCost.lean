import Verif.Model.Expand

/-!
# Lookup of runtime values with a record of the comparisons made

The functions of `Model/Expand.lean` again, this time with a record of the comparisons between the runtime value and
the listed values that are evaluated at runtime.  What the compiler evaluates (lines 62-81 and 139-157, the tests for
sorted and contiguous lists) is not recorded.  Same simplifications as in `Model/Expand.lean`.
-/

namespace Makeshift

/-- A comparison evaluated by the lookup: `values[i] < value` (detail/variant.hpp:92), `value < values[i]` (line 96),
`values[i] == value` (lines 108 and 118). -/
inductive Comparison where
  | listedLess (i : Int)
  | valueLess (i : Int)
  | equal (i : Int)
  deriving DecidableEq, Repr

/-- The outcome of a lookup together with the comparisons made, in order. -/
structure Search where
  result : Outcome Int
  made : List Comparison
  deriving DecidableEq

/-- Comparisons made before the rest of the search. -/
def Search.after (made : List Comparison) (s : Search) : Search := ⟨s.result, made ++ s.made⟩

/-- detail/variant.hpp:89-110, the binary search loop. -/
def binarySearchLoopC {α : Type} (lt eq : α → α → Bool) (value : α) (values : List α) (first last : Int) : Search :=
  if h : last - first > 1 then
    let half := first + (last - first) / 2
    match at? values half with
    | none => ⟨.ub, []⟩
    | some x =>
      if lt x value then (binarySearchLoopC lt eq value values (half + 1) last).after [.listedLess half]
      else if lt value x then (binarySearchLoopC lt eq value values first half).after [.listedLess half, .valueLess half]
      else if hl : half + 1 = last then ⟨.ok half, [.listedLess half, .valueLess half]⟩
      else (binarySearchLoopC lt eq value values first (half + 1)).after [.listedLess half, .valueLess half]
  else if last - first = 1 then
    match at? values first with
    | none => ⟨.ub, []⟩
    | some x => ⟨.ok (if eq x value then first else -1), [.equal first]⟩
  else ⟨.ok (-1), []⟩
  termination_by (last - first).toNat
  decreasing_by
    all_goals omega

/-- detail/variant.hpp:83-111 `search_value_index_2`, sorted case. -/
def binarySearchC {α : Type} (lt eq : α → α → Bool) (value : α) (values : List α) : Search :=
  binarySearchLoopC lt eq value values 0 values.length

/-- detail/variant.hpp:112-121 `search_value_index_2`, unsorted case; `i` is the loop variable. -/
def linearSearchFromC {α : Type} (eq : α → α → Bool) (value : α) (i : Int) : List α → Search
  | [] => ⟨.ok (-1), []⟩
  | x :: r =>
    if eq x value then ⟨.ok i, [.equal i]⟩ else (linearSearchFromC eq value (i + 1) r).after [.equal i]

/-- detail/variant.hpp:132-137 `search_value_index_1`, non-contiguous case. -/
def searchGeneralC {α : Type} (lt : Option (α → α → Bool)) (eq : α → α → Bool) (value : α) (values : List α) : Search :=
  match lt with
  | some lt => if areValuesSorted lt values then binarySearchC lt eq value values else linearSearchFromC eq value 0 values
  | none => linearSearchFromC eq value 0 values

/-- detail/variant.hpp:159-164 `search_value_index_0` for a type with integral representation; the contiguous case
(lines 123-131) compares with the first listed value and the number of values only, both of which are constants. -/
def searchIntegralC (rep : IntTy) (value : Int) (values : List Int) : Search :=
  match areValuesContiguous rep values, values with
  | .ok true, v0 :: _ => ⟨searchContiguous rep value v0 values.length, []⟩
  | .ok _, _ => searchGeneralC (some (fun a b => decide (a < b))) (fun a b => decide (a = b)) value values
  | o, _ => ⟨o.bind fun _ => .ub, []⟩

end Makeshift
