import Verif.Model.IteratorTag

/-! Specification vocabulary for iterator categories. -/

namespace Makeshift.Spec

/-- Strength of the input categories ([iterator.tags]: each is derived from the one before). -/
def strength : Category → Nat
  | .input => 1
  | .forward => 2
  | .bidirectional => 3
  | .randomAccess => 4
  | _ => 0

/-- `std::is_base_of<c, a>` for standard categories. -/
def IsA (a c : Category) : Prop := a = c ∨ (1 ≤ strength c ∧ strength c ≤ strength a)

/-- `std::is_base_of<c, tag>` for a class with the given direct bases. -/
def TagIsA (bases : List Category) (c : Category) : Prop := ∃ a ∈ bases, IsA a c

end Makeshift.Spec
