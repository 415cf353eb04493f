import Verif.Model.TypeTraits
import Verif.Model.MachineInt

/-!
# `type_sequence` as a tuple

Model of `utility.hpp` lines 26-88 and 132-133.  A type sequence is given by the list of its types; its elements are objects of the empty types
`gsl::type_identity<T>`, given by `T`.  A failed `static_assert` or an ill-formed expression is `none`.
-/

namespace Makeshift.TypeSequence

variable {Ty : Type}

/-- utility.hpp:132 `std::tuple_size`. -/
def tupleSize (Ts : List Ty) : Nat := Ts.length

/-- utility.hpp:133 `std::tuple_element`: the type `gsl::type_identity<T>`, given by `T`. -/
def tupleElement (i : Nat) (Ts : List Ty) : Option Ty := nthType i Ts

/-- utility.hpp:67-76 `get<I>`: the return type names `nth_type_`, the body asserts that the index is in range. -/
def getAt (i : Nat) (Ts : List Ty) : Option Ty := (nthType i Ts).bind fun T => if i < Ts.length then some T else none

/-- utility.hpp:78-88 `get<T>`: the index, of type `std::ptrdiff_t`, is converted to `std::size_t` and compared with `std::size_t(-1)`. -/
def getType [DecidableEq Ty] (T : Ty) (Ts : List Ty) : Option Ty :=
  if IntTy.sizeT.wrap (tryTypePackIndex T Ts) ≠ IntTy.sizeT.wrap (-1) then some T else none

/-- An argument: an object of type `gsl::type_identity<T>`, a type sequence, or something else. -/
inductive Arg (Ty : Type) where
  | identity (T : Ty)
  | seq (Ts : List Ty)
  | other

/-- Deduction of `Ts...` from arguments for parameters `gsl::type_identity<Ts>...`. -/
def deduceIdentities : List (Arg Ty) → Option (List Ty)
  | [] => some []
  | .identity T :: as => (deduceIdentities as).map (T :: ·)
  | _ :: _ => none

/-- utility.hpp:26-50: `type_sequence(args...)` without template arguments: the deduction guide (line 49) or the copy deduction candidate.  The guides
generated from the constructors (lines 32-33) deduce the same types as the guide of the class.  The result is the deduced type; it can be constructed
from its arguments in all cases. -/
def deduceSequence : List (Arg Ty) → Option (List Ty)
  | [.seq Ts] => some Ts
  | as => deduceIdentities as

/-- utility.hpp:32-33, 43: whether `type_sequence<Ts...>` can be constructed from the arguments: none, a copy, or one `type_identity` for each type. -/
def constructibleFrom [DecidableEq Ty] (Ts : List Ty) : List (Arg Ty) → Bool
  | [] => true
  | [.seq Us] => decide (Us = Ts)
  | as => decide (deduceIdentities as = some Ts)

/-- utility.hpp:59-65 `make_type_sequence`. -/
def makeTypeSequence (as : List (Arg Ty)) : Option (List Ty) := deduceIdentities as

/-- utility.hpp:35-38, 45-48 `operator ()`: a type sequence is its own value. -/
def callValue (Ts : List Ty) : List Ty := Ts

/-- The elements in order, obtained as `get<0>(seq), get<1>(seq), ...` (client code; the way `apply` and the tuple algorithms access them). -/
def elements (Ts : List Ty) : Option (List Ty) := (List.range (tupleSize Ts)).mapM fun i => getAt i Ts

end Makeshift.TypeSequence
