/-!
# Filling a range from itself

Model of `algorithm.hpp` lines 109-151 where the value or the generator may refer to elements of the range which is filled.

Objects are cells of a memory, and a range is the list of the cells its iterators refer to; these need not be distinct (e.g. a range which repeats one element).
Simplifications: operations do not throw, and increments do not overflow (see C34 for that).
-/

namespace Makeshift.FillAlias

variable {α S : Type}

/-- The values of all cells. -/
abbrev Mem (α : Type) := Nat → α

/-- Assigning to a cell. -/
def store (m : Mem α) (a : Nat) (v : α) : Mem α := fun b => if b = a then v else m b

/-- algorithm.hpp:125-135 `range_fill`.  The parameter `value` is a reference, so that every assignment `*it = value` (line 133) reads or converts the object it
refers to as it is then: `value` gives the result for a given memory. -/
def rangeFill (value : Mem α → α) : List Nat → Mem α → Mem α
  | [], m => m
  | a :: as, m => rangeFill value as (store m a (value m))

/-- algorithm.hpp:109-119 `range_iota`.  The parameter `value` is a copy of the argument. -/
def iotaLoop (inc conv : α → α) : List Nat → α → Mem α → Mem α
  | [], _, m => m
  | a :: as, value, m => iotaLoop inc conv as (inc value) (store m a (conv value))

/-- `range_iota(range, value)` where `value` is the cell `p`. -/
def rangeIota (inc conv : α → α) (p : Nat) (as : List Nat) (m : Mem α) : Mem α := iotaLoop inc conv as (m p) m

/-- algorithm.hpp:141-151 `range_generate`.  In `*it = generate()` (line 149) the functor is called before the assignment; it may read and write memory. -/
def rangeGenerate (generate : Mem α → S → α × Mem α × S) : List Nat → Mem α → S → Mem α × S
  | [], m, s => (m, s)
  | a :: as, m, s => rangeGenerate generate as (store (generate m s).2.1 a (generate m s).1) (generate m s).2.2

end Makeshift.FillAlias
