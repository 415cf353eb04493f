/-!
# Type lists

Model of `detail/type_traits.hpp` lines 35-169, 222-228, `type_traits.hpp` lines 30-195 and `utility.hpp` lines 92-102.

A type is an element of an arbitrary type `Ty` with decidable equality (`std::is_same`); a parameter pack, type sequence,
tuple type or variant type is the list of its types.  A failed `static_assert` or an ill-formed instantiation is `none`.
-/

namespace Makeshift

variable {Ty : Type}

/-- detail/type_traits.hpp:35-36. -/
def elementNotFound : Int := -1
/-- detail/type_traits.hpp:35-36. -/
def elementNotUnique : Int := -2

/-- detail/type_traits.hpp:40-71 `try_type_pack_index_`: the base class conversion `type_pack_index_base<I, T>` is
deduced for `T`; deduction succeeds iff exactly one base class matches, otherwise the variadic overload is chosen. -/
def tryTypePackIndex [DecidableEq Ty] (T : Ty) (Ts : List Ty) : Int :=
  match Ts.zipIdx.filter (fun p => p.1 = T) with
  | [p] => p.2
  | _ => elementNotFound

/-- detail/type_traits.hpp:73-78 `type_pack_index_`, with its `static_assert`. -/
def typePackIndex [DecidableEq Ty] (T : Ty) (Ts : List Ty) : Option Int :=
  if tryTypePackIndex T Ts = elementNotFound then none else some (tryTypePackIndex T Ts)

/-- detail/type_traits.hpp:52-53, 59-64, 87-92 `nth_type_`: the base class is selected by its (unique) index. -/
def nthType (i : Nat) (Ts : List Ty) : Option Ty :=
  match Ts.zipIdx.filter (fun p => p.2 = i) with
  | [p] => some p.1
  | _ => none

/-- detail/type_traits.hpp:100-113 `search_tuple_element_index_0`/`_1`; `i` is the first remaining index `I0`. -/
def searchTupleElementIndexFrom (unique : Bool) (pred : Ty → Bool) (i : Nat) : List Ty → Int
  | [] => elementNotFound
  | T :: Ts =>
    if pred T then
      if unique then
        if searchTupleElementIndexFrom unique pred (i + 1) Ts = elementNotFound then (i : Int) else elementNotUnique
      else (i : Int)
    else searchTupleElementIndexFrom unique pred (i + 1) Ts

/-- detail/type_traits.hpp:113 `search_tuple_element_index`; with `unique = false` it is
`search_first_tuple_element_index` (type_traits.hpp:51-65). -/
def searchTupleElementIndex (unique : Bool) (pred : Ty → Bool) (Ts : List Ty) : Int :=
  searchTupleElementIndexFrom unique pred 0 Ts

/-- detail/type_traits.hpp:115-121 `tuple_element_index`, with its two `static_assert`s. -/
def tupleElementIndex (unique : Bool) (pred : Ty → Bool) (Ts : List Ty) : Option Int :=
  let value := searchTupleElementIndex unique pred Ts
  if value = elementNotFound then none else if value = elementNotUnique then none else some value

/-- detail/type_traits.hpp:128-133 `is_in_`: `type_set_leaf_<T>` is a (possibly ambiguous) base of the type set. -/
def isIn [DecidableEq Ty] (T : Ty) (Ts : List Ty) : Bool := Ts.any (fun U => T = U)

/-- type_traits.hpp:179-181 `is_in_v`: refers to `is_in<T>`, without the list. -/
def isInV [DecidableEq Ty] (T : Ty) (_Ts : List Ty) : Bool := isIn T []

/-- detail/type_traits.hpp:135-140 `unique_sequence_0_`/`_1_`. -/
def uniqueSequence0 [DecidableEq Ty] (Rs : List Ty) : List Ty → List Ty
  | [] => Rs
  | T0 :: Ts => if isIn T0 Ts then uniqueSequence0 Rs Ts else uniqueSequence0 (Rs ++ [T0]) Ts

/-- detail/type_traits.hpp:141-142 `unique_sequence_`. -/
def uniqueSequence [DecidableEq Ty] (Ts : List Ty) : List Ty := uniqueSequence0 [] Ts

/-- detail/type_traits.hpp:144-158 `filter_sequence_0_`/`_1_`. -/
def filterSequence0 (Rs : List Ty) (pred : Ty → Bool) : List Ty → List Ty
  | [] => Rs
  | T0 :: Ts => if pred T0 then filterSequence0 (Rs ++ [T0]) pred Ts else filterSequence0 Rs pred Ts

/-- detail/type_traits.hpp:160-163 `filter_sequence_`. -/
def filterSequence (pred : Ty → Bool) (Ts : List Ty) : List Ty := filterSequence0 [] pred Ts

/-- detail/type_traits.hpp:165-169 `equal_types_`: `some T` is `true_type` with `common_type = T`. -/
def equalTypes [DecidableEq Ty] : List Ty → Option Ty
  | [] => none
  | [T] => some T
  | T0 :: T1 :: Ts => if T0 = T1 then equalTypes (T0 :: Ts) else none
  termination_by l => l.length

/-- detail/type_traits.hpp:222-228 `type_sequence_cat_`. -/
def typeSequenceCat0 (Rs : List Ty) : List (List Ty) → List Ty
  | [] => Rs
  | Ns :: Ts => typeSequenceCat0 (Rs ++ Ns) Ts

/-- utility.hpp:95-96 `type_sequence_cat`. -/
def typeSequenceCat (Ts : List (List Ty)) : List Ty := typeSequenceCat0 [] Ts

end Makeshift
