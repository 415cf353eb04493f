import Verif.Model.Zip
import Mathlib.Data.List.Basic

/-! Specification vocabulary for zipped ranges. -/

namespace Makeshift.Spec

variable {α : Type}

/-- A possible range argument: the size it reports, if any, is the number of its elements; a range without `size()` (in its
decayed form) reports none, unless it is a C array; `range_index` has no elements. -/
def ValidRange (r : Rng α) : Prop :=
  match r.mode with
  | .iteratorPair => r.size = .static (-1) ∨ r.size = .dyn r.elems.length ∨ r.size = .static r.elems.length
  | .iterator => r.size = .dyn r.elems.length ∨ r.size = .static r.elems.length
  | .index => r.size = .dyn r.elems.length ∨ r.size = .static r.elems.length
  | .rangeIndex => r.size = .static (-1)

/-- The range has elements of its own. -/
def IsReal (r : Rng α) : Prop := r.mode ≠ .rangeIndex

/-- What the functor is passed for range `r` at position `i`. -/
def ArgAt (i : Nat) (r : Rng α) (a : Arg α) : Prop :=
  (r.mode = .rangeIndex ∧ a = .idx i) ∨ (r.mode ≠ .rangeIndex ∧ ∃ x, r.elems[i]? = some x ∧ a = .elem x)

/-- `ts` is the list of the first `n` argument tuples. -/
def Zipped (rs : List (Rng α)) (n : Nat) (ts : List (List (Arg α))) : Prop :=
  ts.length = n ∧ ∀ i args, ts[i]? = some args → List.Forall₂ (ArgAt i) rs args

/-- The loop condition compiles: some size is known, or every suffix of at least three arguments starting at an even position
contains a range. -/
def LoopCompiles (rs : List (Rng α)) : Prop :=
  (∃ r ∈ rs, r.size ≠ .static (-1)) ∨ ∀ k, 3 ≤ (rs.drop (2 * k)).length → ∃ r ∈ rs.drop (2 * k), IsReal r

/-- A valid list of range arguments: all of them valid, at least one of them not `range_index`. -/
def ValidArgs (rs : List (Rng α)) : Prop := (∀ r ∈ rs, ValidRange r) ∧ (∃ r ∈ rs, IsReal r) ∧ LoopCompiles rs

/-- All ranges have `n` elements. -/
def AllLength (rs : List (Rng α)) (n : Nat) : Prop := ∀ r ∈ rs, IsReal r → r.elems.length = n

end Makeshift.Spec

namespace Makeshift.Spec

variable {α : Type}

/-- One step a user takes with a random access iterator. -/
inductive Move where
  | inc | dec | add (d : Int) | sub (d : Int)

/-- Taking a step. -/
def Move.take (rs : List (Rng α)) : Move → ZipIt → Outcome ZipIt
  | inc, it => zipInc rs it
  | dec, it => zipDec rs it
  | add d, it => zipAdvance rs it d
  | sub d, it => zipRetreat rs it d

/-- How far a step goes. -/
def Move.shift : Move → Int
  | inc => 1
  | dec => -1
  | add d => d
  | sub d => -d

/-- Taking steps one after the other. -/
def walk (rs : List (Rng α)) : List Move → ZipIt → Outcome ZipIt
  | [], it => .ok it
  | m :: ms, it => (m.take rs it).bind (walk rs ms)

/-- The position after taking steps from position `p`. -/
def destination : List Move → Int → Int
  | [], p => p
  | m :: ms, p => destination ms (p + m.shift)

/-- No step from position `p` leaves `[0, n]`. -/
def StaysIn (n : Nat) : List Move → Int → Prop
  | [], p => 0 ≤ p ∧ p ≤ n
  | m :: ms, p => 0 ≤ p ∧ p ≤ n ∧ StaysIn n ms (p + m.shift)

end Makeshift.Spec
