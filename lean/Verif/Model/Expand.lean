import Verif.Model.MachineInt

/-!
# Lookup of runtime values and `expand`

Model of `detail/variant.hpp` lines 62-181 and `variant.hpp` lines 43-50, 98-105, 153-160.

Simplification: in the binary and linear searches the runtime value has the same type as the listed values, so that
`<` and `==` involve no conversion. The contiguous search keeps the types apart (`rep` is the representation type of
the *runtime* value).  Values of enumeration type are given by their underlying values, `bool` by 0/1 with `rep = int`.
-/

namespace Makeshift

/-- detail/variant.hpp:62-71 `are_values_sorted_0` for an ordered type: no element is less than its predecessor. -/
def areValuesSorted {α : Type} (lt : α → α → Bool) : List α → Bool
  | [] => true
  | [_] => true
  | a :: b :: r => if lt b a then false else areValuesSorted lt (b :: r)

/-- Element access `values[i]` with a `ptrdiff_t` index; `none` is out of bounds. -/
def at? {α : Type} (l : List α) (i : Int) : Option α := if i < 0 then none else l[i.toNat]?

/-- detail/variant.hpp:89-110, the binary search loop with variables `first`, `last`. -/
def binarySearchLoop {α : Type} (lt eq : α → α → Bool) (value : α) (values : List α) (first last : Int) : Outcome Int :=
  if h : last - first > 1 then
    let half := first + (last - first) / 2
    match at? values half with
    | none => .ub
    | some x =>
      if lt x value then binarySearchLoop lt eq value values (half + 1) last
      else if lt value x then binarySearchLoop lt eq value values first half
      else if hl : half + 1 = last then .ok half
      else binarySearchLoop lt eq value values first (half + 1)
  else if last - first = 1 then
    match at? values first with
    | none => .ub
    | some x => .ok (if eq x value then first else -1)
  else .ok (-1)
  termination_by (last - first).toNat
  decreasing_by
    all_goals omega

/-- detail/variant.hpp:83-111 `search_value_index_2`, sorted case. -/
def binarySearch {α : Type} (lt eq : α → α → Bool) (value : α) (values : List α) : Outcome Int :=
  binarySearchLoop lt eq value values 0 values.length

/-- detail/variant.hpp:112-121 `search_value_index_2`, unsorted case; `i` is the loop variable. -/
def linearSearchFrom {α : Type} (eq : α → α → Bool) (value : α) (i : Int) : List α → Int
  | [] => -1
  | x :: r => if eq x value then i else linearSearchFrom eq value (i + 1) r

/-- detail/variant.hpp:132-137 `search_value_index_1`, non-contiguous case.  `lt` is `none` for types without `<`
(lines 59-60, 72-76). -/
def searchGeneral {α : Type} (lt : Option (α → α → Bool)) (eq : α → α → Bool) (value : α) (values : List α) : Outcome Int :=
  match lt with
  | some lt => if areValuesSorted lt values then binarySearch lt eq value values else .ok (linearSearchFrom eq value 0 values)
  | none => .ok (linearSearchFrom eq value 0 values)

/-- Loop of detail/variant.hpp:145-151; `r` is the previous value. `.ub` is signed overflow in `r + 1`; as the function
is evaluated at compile time (line 162), such a program is rejected by the compiler. -/
def areContiguousFrom (rep : IntTy) (r : Int) : List Int → Outcome Bool
  | [] => .ok true
  | x :: xs => (rep.promote.arith (r + 1)).bind fun s =>
      if rep.wrap x ≠ s then .ok false else areContiguousFrom rep (rep.wrap x) xs

/-- detail/variant.hpp:139-157 `are_values_contiguous`. -/
def areValuesContiguous (rep : IntTy) : List Int → Outcome Bool
  | [] => .ok false
  | v :: vs => areContiguousFrom rep (rep.wrap v) vs

/-- detail/variant.hpp:123-131 `search_value_index_1`, contiguous case; `v0` is `values[0]`, `size` is `values.size()`. -/
def searchContiguous (rep : IntTy) (value v0 : Int) (size : Nat) : Outcome Int :=
  let r0 := rep.wrap v0
  let r := rep.wrap value
  if r < r0 then .ok (-1)
  else (rep.promote.arith (r - r0)).bind fun d =>
    if IntTy.sizeT.wrap d ≥ size then .ok (-1) else .ok (IntTy.ptrdiffT.wrap d)

/-- detail/variant.hpp:159-164 `search_value_index_0` for a type with integral representation. -/
def searchIntegral (rep : IntTy) (value : Int) (values : List Int) : Outcome Int :=
  (areValuesContiguous rep values).bind fun contiguous =>
    match contiguous, values with
    | true, v0 :: _ => searchContiguous rep value v0 values.length
    | _, _ => searchGeneral (some (fun a b => decide (a < b))) (fun a b => decide (a = b)) value values

/-- How the three functions treat a negative index: variant.hpp:48, 103, 158. -/
inductive ExpandMode where
  | failfast | optional | throwing
  deriving DecidableEq, Repr

/-- variant.hpp:43-50 `expand_failfast`, 98-105 `try_expand`, 153-160 `expand`, given the lookup result.  The resulting
variant is represented by the listed value held by its active alternative; `none` is `std::nullopt`. -/
def expandWith {α : Type} (mode : ExpandMode) (search : Outcome Int) (values : List α) : Outcome (Option α) :=
  search.bind fun index =>
    if index < 0 then
      match mode with
      | .failfast => .failFast
      | .optional => .ok none
      | .throwing => .throw (str "unsupported runtime value")        -- detail/variant.hpp:25-29
    else
      match at? values index with
      | none => .ub
      | some v => .ok (some v)

end Makeshift
