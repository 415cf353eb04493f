import Verif.Model.RangeArgs

/-! Specification vocabulary for types of range arguments. -/

namespace Makeshift.Spec

open RangeArgs

/-- What can be done with const lvalues of a class can be done with lvalues. -/
def ConstIsWeaker : Ty → Prop
  | .class c => (c.constBegin = true → c.begin_ = true) ∧ (c.constData = true → c.data = true)
  | _ => True

/-- A range-based `for` loop over the argument compiles. -/
def Iterable (a : Argument) : Prop :=
  match a.ty with
  | .rangeIndex => False
  | .cArray _ => True
  | .class c => if a.const then c.constBegin = true else c.begin_ = true

/-- A class which is contiguous in the way of `std::vector`, `std::array`, `std::string_view`, `gsl::span`, or makes no claim to be. -/
def VectorLike (c : Class) : Prop := c.freeData = false ∧ (c.constData = true → c.constSize = true)

/-- The iterators of a class are iterators as before C++20: they are returned by value, have a category, and can be dereferenced if they
are const. -/
def ClassicIterators (c : Class) : Prop := c.traits = true ∧ c.constDeref = true

/-- The sizes a type reports for an object with `n` elements are right. -/
def Honest (n : Nat) : Ty → Prop
  | .rangeIndex => True
  | .cArray k => k = n
  | .class c => ∀ k, c.tupleSize = some k → k = n

end Makeshift.Spec
